import Verif.Ppc.Layout

/-! `ffi_prep_args64` puts every argument where the convention says. -/
namespace Verif.Ppc
open Verif Verif.Spec Verif.Spec.Ppc

/-- Where the byte with offset `o` of the parameter list is put. -/
def Fr.at (F : Fr) (o : Nat) : Nat := if o < 64 then F.gprBase + o else F.S + 32 + o

/-- The parts of the frame do not overlap; `ps`, `fp`, `vec` say which there are, and `N` doublewords
of parameters have room. -/
structure Geo (F : Fr) (ps fp vec : Bool) (N : Nat) : Prop where
  al : F.S % 16 = 0
  alg : F.gprBase % 16 = 0
  g : F.S + 32 ≤ F.gprBase
  gps : ps = true → F.S + 32 + 8 * N ≤ F.gprBase
  f : fp = true → F.S + 32 ≤ F.fprBase ∧ F.fprBase + 104 ≤ F.gprBase
  fps : fp = true → ps = true → F.S + 32 + 8 * N ≤ F.fprBase
  v : vec = true → F.S + 32 ≤ F.vecBase ∧ F.vecBase + 192 ≤ F.gprBase
  vf : vec = true → fp = true → F.vecBase + 192 ≤ F.fprBase
  vps : vec = true → ps = true → F.S + 32 + 8 * N ≤ F.vecBase

/-- What arguments from offset `o` on, with `nf` and `nv` registers in use, may overwrite. -/
def Later (F : Fr) (ps fp vec : Bool) (N o nf nv : Nat) (x : Nat) : Prop :=
  (F.gprBase + o ≤ x ∧ x < F.gprBase + 64) ∨
  (ps = true ∧ F.S + 96 ≤ x ∧ F.S + 32 + o ≤ x ∧ x < F.S + 32 + 8 * N) ∨
  (fp = true ∧ F.fprBase + 8 * nf ≤ x ∧ x < F.fprBase + 104) ∨
  (vec = true ∧ F.vecBase + 16 * nv ≤ x ∧ x < F.vecBase + 192)

/-- The frame without the linkage area and the saved registers. -/
def Area (F : Fr) (x : Nat) : Prop := F.S + 32 ≤ x ∧ x < F.gprBase + 64

theorem Later.area {F : Fr} {ps fp vec : Bool} {N : Nat} (g : Geo F ps fp vec N) {o nf nv x : Nat} (h : Later F ps fp vec N o nf nv x) : Area F x := by
  unfold Area
  rcases h with h | h | h | h
  · have := g.g; omega
  · have := g.gps h.1; omega
  · have := g.f h.1; omega
  · have := g.v h.1; omega

theorem Later.mono {F : Fr} {ps fp vec : Bool} {N o nf nv o' nf' nv' x : Nat} (h : Later F ps fp vec N o' nf' nv' x)
    (h1 : o ≤ o') (h2 : nf ≤ nf') (h3 : nv ≤ nv') : Later F ps fp vec N o nf nv x := by
  rcases h with h | h | h | h
  · exact .inl ⟨by omega, h.2⟩
  · exact .inr (.inl ⟨h.1, h.2.1, by omega, h.2.2.2⟩)
  · exact .inr (.inr (.inl ⟨h.1, by omega, h.2.2⟩))
  · exact .inr (.inr (.inr ⟨h.1, by omega, h.2.2⟩))

/-- Byte `i` from offset `o` on is put somewhere in between. -/
theorem at_later {F : Fr} {ps fp vec : Bool} {N o nf nv i : Nat} (h : o ≤ i) (hi : i < 64 ∨ ps = true ∧ i < 8 * N) :
    Later F ps fp vec N o nf nv (F.at i) := by
  unfold Fr.at
  split
  · exact .inl ⟨by omega, by omega⟩
  · exact .inr (.inl ⟨(hi.resolve_left (by omega)).1, by omega, by omega, by have := hi.resolve_left (by omega); omega⟩)

/-- Earlier bytes are left alone. -/
theorem at_early {F : Fr} {ps fp vec : Bool} {N : Nat} (g : Geo F ps fp vec N) {o nf nv i : Nat} (h : i < o) (hi : i < 64 ∨ ps = true ∧ i < 8 * N) :
    ¬ Later F ps fp vec N o nf nv (F.at i) := by
  unfold Fr.at
  have h1 := g.g
  intro hl
  split at hl
  · rcases hl with h | h | h | h
    · omega
    · have := g.gps h.1; omega
    · have := g.f h.1; omega
    · have := g.v h.1; omega
  · have h2 := hi.resolve_left (by omega)
    have h3 := g.gps h2.1
    rcases hl with h | h | h | h
    · omega
    · omega
    · have := g.fps h.1 h2.1; omega
    · have := g.vps h.1 h2.1; omega

theorem fpr_early {F : Fr} {ps fp vec : Bool} {N : Nat} (g : Geo F ps fp vec N) (hf : fp = true) {o nf nv k i : Nat} (h : k < nf) (hk : k < 13) (hi : i < 8) :
    ¬ Later F ps fp vec N o nf nv (F.fprBase + 8 * k + i) := by
  have h1 := g.f hf
  rintro (h | h | h | h)
  · omega
  · have := g.fps hf h.1; omega
  · omega
  · have := g.vf h.1 hf; omega

theorem vec_early {F : Fr} {ps fp vec : Bool} {N : Nat} (g : Geo F ps fp vec N) (hf : vec = true) {o nf nv k i : Nat} (h : k < nv) (hk : k < 12) (hi : i < 16) :
    ¬ Later F ps fp vec N o nf nv (F.vecBase + 16 * k + i) := by
  have h1 := g.v hf
  rintro (h | h | h | h)
  · omega
  · have := g.vps hf h.1; omega
  · have := g.vf hf h.1; omega
  · omega

theorem at_add {F : Fr} {o i d : Nat} (hd : d = 4 ∨ d = 8 ∨ d = 16) (ho : o % d = 0) (hi : i < d) : F.at o + i = F.at (o + i) := by
  unfold Fr.at
  split <;> split <;> rcases hd with rfl | rfl | rfl <;> omega

theorem bump_at {F : Fr} {ps fp vec : Bool} {N : Nat} (g : Geo F ps fp vec N) {o d : Nat} (hd : d = 4 ∨ d = 8 ∨ d = 16) (ho : o % d = 0) (hN : o + d ≤ 8 * N)
    (h : o + d < 64 ∨ ps = true) : F.bump (F.at o + d) = F.at (o + d) := by
  have h1 := g.g
  unfold Fr.bump Fr.at Fr.gprEnd Fr.rest numGpr
  by_cases h64 : o < 64
  · rw [if_pos h64]
    by_cases he : o + d = 64
    · rw [if_pos (by omega), if_neg (by omega)]; omega
    · rw [if_neg (by omega), if_pos (by rcases hd with rfl | rfl | rfl <;> omega)]; omega
  · rw [if_neg h64, if_neg (show ¬ o + d < 64 by omega)]
    have h2 := g.gps (h.resolve_left (by omega))
    rw [if_neg (by omega)]; omega

/-- The variables of the loop within an argument. -/
structure Mid (F : Fr) (ps named : Bool) (s : St) (o nf nv : Nat) : Prop where
  na : o < 64 ∨ ps = true → s.na = F.at o
  fc : s.fc = nf
  vc : s.vc = nv
  fb : named = true → nf ≤ 13 → s.fb = F.fprBase + 8 * nf
  vb : named = true → nv ≤ 12 → s.vb = F.vecBase + 16 * nv

/-- Where a part in a register is put, its size there, and how it looks there. -/
def regA (F : Fr) (c : Cls) (k : Nat) : Nat := match c with | .v128 => F.vecBase + 16 * k | _ => F.fprBase + 8 * k
def regW (c : Cls) : Nat := match c with | .v128 => 16 | _ => 8
def regBytes (c : Cls) (v : List Byte) : List Byte := match c with | .f32 => leBytes 8 (dblOf (leNat v)) | _ => v

/-- A part has been put. -/
def Cell (F : Fr) (c : Cls) (named : Bool) (r o : Nat) (v : List Byte) (m m' : Mem) : Prop :=
  if named = true ∧ r < c.count then m' = m.wr (regA F c r) (regBytes c v) else m' = m.wr (F.at o) v

theorem put64_ok {F : Fr} {ps fp vec : Bool} {N : Nat} (g : Geo F ps fp vec N) {named : Bool} {s : St} {o nf nv a : Nat} {m : Mem}
    (h : Mid F ps named s o nf nv) (c : Cls) (hc : c = .f64 ∨ c = .ibm) (ho : o % 8 = 0) (hN : o + 8 ≤ 8 * N)
    (hr : ¬ (named = true ∧ nf < 13) → o + 8 ≤ 64 ∨ ps = true) :
    Mid F ps named (put64 F named a s m).1 (o + 8) (nf + 1) nv ∧ Cell F c named nf o (m.rd a 8) m (put64 F named a s m).2 := by
  have hcc : c.count = 13 := by rcases hc with rfl | rfl <;> rfl
  unfold put64 Cell
  rw [h.fc, hcc]
  dsimp only
  by_cases hn : named = true ∧ nf < 13
  · rw [if_pos ⟨hn.2, hn.1⟩, if_pos hn, h.fb hn.1 (by omega)]
    refine ⟨⟨?_, by simp, h.vc, by intro _ _; dsimp only; omega, h.vb⟩, ?_⟩
    · intro h1
      dsimp only
      rw [h.na (h1.imp_left (fun h => by omega)), bump_at g (by simp) ho hN h1]
    · rcases hc with rfl | rfl <;> rfl
  · rw [if_neg (fun h => hn ⟨h.2, h.1⟩), if_neg hn, h.na ((hr hn).imp_left (fun h => by omega))]
    refine ⟨⟨?_, by simp, h.vc, ?_, h.vb⟩, rfl⟩
    · intro h1
      dsimp only
      rw [bump_at g (by simp) ho hN h1]
    · intro h1 h2
      exact absurd ⟨h1, by omega⟩ hn

theorem put32_ok {F : Fr} {ps fp vec : Bool} {N : Nat} (g : Geo F ps fp vec N) {named : Bool} {s : St} {o nf nv a d : Nat} {m : Mem}
    (h : Mid F ps named s o nf nv) (hd : d = 4 ∨ d = 8) (ho : o % d = 0) (hN : o + d ≤ 8 * N)
    (hr : ¬ (named = true ∧ nf < 13) → o + d ≤ 64 ∨ ps = true) :
    Mid F ps named (put32 F named d a s m).1 (o + d) (nf + 1) nv ∧ Cell F .f32 named nf o (m.rd a 4) m (put32 F named d a s m).2 := by
  unfold put32 Cell
  rw [h.fc, show Cls.count .f32 = 13 from rfl]
  dsimp only
  have hd' : d = 4 ∨ d = 8 ∨ d = 16 := by omega
  by_cases hn : named = true ∧ nf < 13
  · rw [if_pos ⟨hn.2, hn.1⟩, if_pos hn, h.fb hn.1 (by omega)]
    refine ⟨⟨?_, by simp, h.vc, by intro _ _; dsimp only; omega, h.vb⟩, rfl⟩
    intro h1
    dsimp only
    rw [h.na (h1.imp_left (fun h => by omega)), bump_at g hd' ho hN h1]
  · rw [if_neg (fun h => hn ⟨h.2, h.1⟩), if_neg hn, h.na ((hr hn).imp_left (fun h => by omega))]
    refine ⟨⟨?_, by simp, h.vc, ?_, h.vb⟩, ?_⟩
    · intro h1
      dsimp only
      rw [bump_at g hd' ho hN h1]
    · intro h1 h2
      exact absurd ⟨h1, by omega⟩ hn
    · dsimp only
      have hl := leNat_lt (m.rd a 4)
      rw [Mem.rd_length] at hl
      rw [sglOf_dblOf (by simpa using hl)]
      have := leBytes_leNat (m.rd a 4)
      rw [Mem.rd_length] at this
      rw [this]

theorem put128_ok {F : Fr} {ps fp vec : Bool} {N : Nat} (g : Geo F ps fp vec N) {named : Bool} {s : St} {o nf nv a : Nat} {m : Mem}
    (h : Mid F ps named s o nf nv) (ho : o % 16 = 0) (hN : o + 16 ≤ 8 * N)
    (hr : ¬ (named = true ∧ nv < 12) → o + 16 ≤ 64 ∨ ps = true) :
    Mid F ps named (put128 F named a s m).1 (o + 16) nf (nv + 1) ∧ Cell F .v128 named nv o (m.rd a 16) m (put128 F named a s m).2 := by
  unfold put128 Cell
  rw [h.vc, show Cls.count .v128 = 12 from rfl]
  dsimp only
  by_cases hn : named = true ∧ nv < 12
  · rw [if_pos ⟨hn.2, hn.1⟩, if_pos hn, h.vb hn.1 (by omega)]
    refine ⟨⟨?_, h.fc, by simp, h.fb, by intro _ _; dsimp only; omega⟩, rfl⟩
    intro h1
    dsimp only
    rw [h.na (h1.imp_left (fun h => by omega)), bump_at g (by simp) ho hN h1]
  · rw [if_neg (fun h => hn ⟨h.2, h.1⟩), if_neg hn, h.na ((hr hn).imp_left (fun h => by omega))]
    refine ⟨⟨?_, h.fc, by simp, h.fb, ?_⟩, rfl⟩
    · intro h1
      dsimp only
      rw [bump_at g (by simp) ho hN h1]
    · intro h1 h2
      exact absurd ⟨h1, by omega⟩ hn

/-- The registers that the assembly code loads from the frame. -/
def regsOf (F : Fr) (m : Mem) : Regs where
  gpr k := leNat (m.rd (F.gprBase + 8 * k) 8)
  fpr k := leNat (m.rd (F.fprBase + 8 * k) 8)
  vec k := leNat (m.rd (F.vecBase + 16 * k) 16)
  mem := m
  sp := F.S

theorem img_at (F : Fr) (m : Mem) (o : Nat) : (regsOf F m).img o = m (F.at o) := by
  unfold Regs.img Fr.at regsOf
  dsimp only
  split
  · have := leBytes_leNat (m.rd (F.gprBase + 8 * (o / 8)) 8)
    rw [Mem.rd_length] at this
    rw [this, Mem.rd_getD _ _ _ _ (Nat.mod_lt _ (by decide))]
    congr 1
    omega
  · rfl

theorem img_rd {F : Fr} {m : Mem} {o n : Nat} {v : List Byte} (hv : v.length = n) (h : ∀ i, i < n → m (F.at (o + i)) = v.getD i 0) :
    (regsOf F m).img.rd o n = v := by
  apply bytes_ext (by simp [hv])
  intro i hi
  rw [Mem.rd_length] at hi
  rw [Mem.rd_getD _ _ _ _ hi, img_at, h i hi]

/-- A part is found. -/
def Got (R : Regs) (c : Cls) (named : Bool) (r o : Nat) (v : List Byte) : Prop :=
  if named = true ∧ r < c.count then InReg R c r v else R.img.rd o c.bytes = v

/-- The class has registers in the frame. -/
def Has (fp vec : Bool) (c : Cls) : Prop := match c with | .v128 => vec = true | _ => fp = true

theorem cell_got {F : Fr} {c : Cls} {named : Bool} {r o : Nat} {v : List Byte} {m m' : Mem} (hv : v.length = c.bytes) (ho : o % c.bytes = 0)
    (h : Cell F c named r o v m m') : Got (regsOf F m') c named r o v := by
  unfold Cell at h
  unfold Got
  split at h
  · rename_i hn
    rw [if_pos hn, h]
    have h8 : ∀ (x : Nat) (w : List Byte), w.length = 8 → leNat ((m.wr x w).rd x 8) = leNat w := by
      intro x w hw
      rw [← hw, Mem.rd_wr_same]
    cases c
    · show leNat ((m.wr (F.fprBase + 8 * r) (leBytes 8 (dblOf (leNat v)))).rd (F.fprBase + 8 * r) 8) = _
      rw [h8 _ _ (by simp), leNat_leBytes]
      have hl := leNat_lt v
      rw [hv] at hl
      exact Nat.mod_eq_of_lt (dblOf_lt (by simpa [Cls.bytes] using hl))
    · exact h8 _ _ hv
    · exact h8 _ _ hv
    · show leNat ((m.wr (F.vecBase + 16 * r) v).rd (F.vecBase + 16 * r) 16) = _
      have hv' : v.length = 16 := hv
      rw [← hv', Mem.rd_wr_same]
  · rename_i hn
    rw [if_neg hn, h]
    apply img_rd hv
    intro i hi
    rw [← at_add (d := c.bytes) (by cases c <;> simp [Cls.bytes]) ho hi, Mem.wr_in _ _ _ _ (by omega)]

theorem got_keep {F : Fr} {ps fp vec : Bool} {N : Nat} (g : Geo F ps fp vec N) {c : Cls} {named : Bool} {r o o' nf nv : Nat} {v : List Byte} {m m' : Mem}
    (hc : Has fp vec c) (h : Got (regsOf F m) c named r o v) (hk : ∀ x, ¬ Later F ps fp vec N o' nf nv x → m' x = m x)
    (ho : o + c.bytes ≤ o') (hr : match c with | .v128 => r < nv | _ => r < nf)
    (hp : ¬ (named = true ∧ r < c.count) → o + c.bytes ≤ 64 ∨ ps = true ∧ o + c.bytes ≤ 8 * N) : Got (regsOf F m') c named r o v := by
  unfold Got at h ⊢
  split at h
  · rename_i hn
    rw [if_pos hn]
    have hf : ∀ _ : Nat, c.count = 13 → r < nf → fp = true → (regsOf F m').fpr r = (regsOf F m).fpr r := by
      intro _ hcc hr hf
      show leNat _ = leNat _
      rw [Mem.rd_congr]
      intro i hi
      exact hk _ (fpr_early g hf hr (by omega) hi)
    cases c
    · show _ = _; rw [hf 0 rfl hr hc]; exact h
    · show _ = _; rw [hf 0 rfl hr hc]; exact h
    · show _ = _; rw [hf 0 rfl hr hc]; exact h
    · show leNat _ = _
      rw [Mem.rd_congr (m := m)]
      · exact h
      · intro i hi
        exact hk _ (vec_early g hc hr hn.2 hi)
  · rename_i hn
    rw [if_neg hn, ← h]
    apply Mem.rd_congr
    intro i hi
    rw [img_at, img_at]
    exact hk _ (at_early g (by omega) ((hp hn).imp (fun h => by omega) (fun h => ⟨h.1, by omega⟩)))

/-- A part changes only what later parts may. -/
theorem cell_frame {F : Fr} {ps fp vec : Bool} {N : Nat} {c : Cls} {named : Bool} {r o nf nv : Nat} {v : List Byte} {m m' : Mem}
    (hc : Has fp vec c) (hv : v.length = c.bytes) (hal : o % c.bytes = 0) (h : Cell F c named r o v m m')
    (hr : match c with | .v128 => r = nv | _ => r = nf) (hp : ¬ (named = true ∧ r < c.count) → o + c.bytes ≤ 64 ∨ ps = true ∧ o + c.bytes ≤ 8 * N) :
    ∀ x, ¬ Later F ps fp vec N o nf nv x → m' x = m x := by
  intro x hx
  unfold Cell at h
  split at h
  · rename_i hn
    rw [h]
    apply Mem.wr_out
    by_contra hcon
    apply hx
    cases c
    · simp only [regA, regBytes, leBytes_length] at hcon
      exact .inr (.inr (.inl ⟨hc, by omega, by have := hn.2; simp [Cls.count] at this; omega⟩))
    · simp only [regA, regBytes, hv, Cls.bytes] at hcon
      exact .inr (.inr (.inl ⟨hc, by omega, by have := hn.2; simp [Cls.count] at this; omega⟩))
    · simp only [regA, regBytes, hv, Cls.bytes] at hcon
      exact .inr (.inr (.inl ⟨hc, by omega, by have := hn.2; simp [Cls.count] at this; omega⟩))
    · simp only [regA, regBytes, hv, Cls.bytes] at hcon
      exact .inr (.inr (.inr ⟨hc, by omega, by have := hn.2; simp [Cls.count] at this; omega⟩))
  · rename_i hn
    rw [h]
    apply Mem.wr_out
    by_contra hcon
    apply hx
    have h1 : x = F.at (o + (x - F.at o)) := by
      rw [← at_add (d := c.bytes) (by cases c <;> simp [Cls.bytes]) hal (by omega)]; omega
    rw [h1]
    exact at_later (by omega) ((hp hn).imp (fun h => by omega) (fun h => ⟨h.1, by omega⟩))

/-- Kinds of parts. -/
def kOf : Cls → K
  | .f32 => .f32
  | .f64 | .ibm => .f64
  | .v128 => .f128

theorem kOf_size (c : Cls) : (kOf c).size = c.bytes := by cases c <;> rfl

/-- Registers in use after `n` more of the class. -/
def nfOf (c : Cls) (nf n : Nat) : Nat := match c with | .v128 => nf | _ => nf + n
def nvOf (c : Cls) (nv n : Nat) : Nat := match c with | .v128 => nv + n | _ => nv
def rOf (c : Cls) (nf nv : Nat) : Nat := match c with | .v128 => nv | _ => nf

theorem putPart_ok {F : Fr} {ps fp vec : Bool} {N : Nat} (g : Geo F ps fp vec N) {named : Bool} {s : St} {o nf nv a : Nat} {m : Mem}
    (h : Mid F ps named s o nf nv) (c : Cls) (ho : o % c.bytes = 0) (hN : o + c.bytes ≤ 8 * N)
    (hr : ¬ (named = true ∧ rOf c nf nv < c.count) → o + c.bytes ≤ 64 ∨ ps = true) :
    Mid F ps named (putPart F named (kOf c) a s m).1 (o + c.bytes) (nfOf c nf 1) (nvOf c nv 1) ∧
    Cell F c named (rOf c nf nv) o (m.rd a c.bytes) m (putPart F named (kOf c) a s m).2 := by
  cases c
  · exact put32_ok g h (.inl rfl) ho hN hr
  · exact put64_ok g h .f64 (.inl rfl) ho hN hr
  · exact put64_ok g h .ibm (.inr rfl) ho hN hr
  · exact put128_ok g h ho hN hr

theorem putParts_ok {F : Fr} {ps fp vec : Bool} {N : Nat} (g : Geo F ps fp vec N) {named : Bool} (c : Cls) (hc : Has fp vec c) (n : Nat) :
    ∀ (s : St) (o nf nv a : Nat) (m : Mem), Mid F ps named s o nf nv → o % c.bytes = 0 → o + c.bytes * n ≤ 8 * N →
    (∀ j, j < n → ¬ (named = true ∧ rOf c nf nv + j < c.count) → o + c.bytes * (j + 1) ≤ 64 ∨ ps = true) →
    (∀ i, i < c.bytes * n → ¬ Area F (a + i)) →
    Mid F ps named (putParts F named (kOf c) n a s m).1 (o + c.bytes * n) (nfOf c nf n) (nvOf c nv n) ∧
    (∀ j, j < n → Got (regsOf F (putParts F named (kOf c) n a s m).2) c named (rOf c nf nv + j) (o + c.bytes * j) (m.rd (a + c.bytes * j) c.bytes)) ∧
    (∀ x, ¬ Later F ps fp vec N o nf nv x → (putParts F named (kOf c) n a s m).2 x = m x) := by
  induction n with
  | zero =>
    intro s o nf nv a m h _ _ _ _
    refine ⟨?_, fun j hj => absurd hj (by omega), fun _ _ => rfl⟩
    simp only [putParts, Nat.mul_zero, Nat.add_zero]
    cases c <;> exact h
  | succ n ih =>
    intro s o nf nv a m h ho hN hr ha
    have hb : 0 < c.bytes := by cases c <;> decide
    rw [Nat.mul_succ] at hN ha
    have hr0 := hr 0 (by omega)
    rw [Nat.add_zero, Nat.zero_add, Nat.mul_one] at hr0
    obtain ⟨h1, h2⟩ := putPart_ok (m := m) (a := a) g h c ho (by omega) hr0
    have hv : (m.rd a c.bytes).length = c.bytes := by simp
    have hfr := cell_frame (nf := nf) (nv := nv) (ps := ps) (N := N) hc hv ho h2 (by cases c <;> rfl)
      (by intro hh; rcases hr0 hh with h | h
          · exact .inl h
          · exact .inr ⟨h, by omega⟩)
    have hro : ∀ j, rOf c (nfOf c nf 1) (nvOf c nv 1) + j = rOf c nf nv + (j + 1) := by
      intro j; cases c <;> simp only [rOf, nfOf, nvOf] <;> omega
    obtain ⟨i1, i2, i3⟩ := ih _ _ _ _ (a + c.bytes) (putPart F named (kOf c) a s m).2 h1 (by rw [Nat.add_mod_right]; exact ho) (by omega)
      (by
        intro j hj hh
        rw [hro] at hh
        have := hr (j + 1) (by omega) hh
        rw [Nat.mul_succ] at this ⊢
        rw [Nat.mul_succ] at this
        exact this.imp_left (fun h => by omega))
      (by intro i hi; rw [Nat.add_assoc]; exact ha _ (by omega))
    have hnf : nf ≤ nfOf c nf 1 := by cases c <;> simp [nfOf]
    have hnv : nv ≤ nvOf c nv 1 := by cases c <;> simp [nvOf]
    simp only [putParts, kOf_size]
    refine ⟨?_, ?_, ?_⟩
    · rw [show o + c.bytes * (n + 1) = o + c.bytes + c.bytes * n by rw [Nat.mul_succ]; omega,
        show nfOf c nf (n + 1) = nfOf c (nfOf c nf 1) n by cases c <;> simp only [nfOf] <;> omega,
        show nvOf c nv (n + 1) = nvOf c (nvOf c nv 1) n by cases c <;> simp only [nvOf] <;> omega]
      exact i1
    · intro j hj
      cases j with
      | zero =>
        rw [Nat.mul_zero, Nat.add_zero, Nat.add_zero, Nat.add_zero]
        refine got_keep g hc (cell_got hv ho h2) i3 (Nat.le_refl _) (by cases c <;> simp [rOf, nfOf, nvOf]) ?_
        intro hh
        rcases hr0 hh with h | h
        · exact .inl h
        · exact .inr ⟨h, by omega⟩
      | succ j =>
        have := i2 j (by omega)
        rw [hro] at this
        rw [show o + c.bytes * (j + 1) = o + c.bytes + c.bytes * j by rw [Nat.mul_succ]; omega,
          show a + c.bytes * (j + 1) = a + c.bytes + c.bytes * j by rw [Nat.mul_succ]; omega]
        rw [Mem.rd_congr (m := m)] at this
        · exact this
        · intro i hi
          apply hfr
          intro hl
          have hle : c.bytes * (j + 1) ≤ c.bytes * n := Nat.mul_le_mul_left _ (by omega)
          rw [Nat.mul_succ] at hle
          have := ha (c.bytes + c.bytes * j + i) (by omega)
          apply this
          rw [show a + (c.bytes + c.bytes * j + i) = a + c.bytes + c.bytes * j + i by omega]
          exact hl.area g
    · intro x hx
      rw [i3 x (fun hl => hx (hl.mono (by omega) hnf hnv)), hfr x hx]

end Verif.Ppc
