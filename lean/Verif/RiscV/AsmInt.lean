import Verif.RiscV.AsmLemmas

/-
Interruptions and unwinding for straight-line code of the machine of `RiscV/Asm.lean` (RISC-V and LoongArch):
a signal handler may run before every instruction and overwrite the stack below the
stack pointer (there is no red zone), and an unwinder may look at the state at any instruction.
-/
namespace Verif.RV.Asm
open Verif Verif.RV

/-- Call frame directives; offsets in bytes. -/
inductive Cfi
  | defCfa (r : Nat) (k : Int)
  | defCfaOffset (k : Int)
  | offset (r : Nat) (k : Int)
  | restore (r : Nat)
  deriving DecidableEq, Repr

/-- What the directives before an instruction add up to: the canonical frame address is register `reg` plus
`off`; a register in `saved` is at that offset from it, others hold their values. -/
structure Row where
  reg : Nat
  off : Int
  saved : Nat → Option Int

def Row.apply (w : Row) : Cfi → Row
  | .defCfa r k => { w with reg := r, off := k }
  | .defCfaOffset k => { w with off := k }
  | .offset r k => { w with saved := upd w.saved r (some k) }
  | .restore r => { w with saved := upd w.saved r none }

/-- Lines of the file: instructions, the call and the return among them, and directives. -/
inductive Item
  | ins (i : Ins)
  | call
  | ret
  | cfi (d : Cfi)

/-- The row for every instruction. -/
def rows : List Item → Row → List Row
  | [], _ => []
  | .cfi d :: is, w => rows is (w.apply d)
  | _ :: is, w => w :: rows is w

/-- The instructions, `none` for the call and the return. -/
def code : List Item → List (Option Ins)
  | [] => []
  | .cfi _ :: is => code is
  | .ins i :: is => some i :: code is
  | _ :: is => none :: code is

/-- The canonical frame address, and the value an unwinder finds for a register. -/
def Row.cfa (c : Cfg) (w : Row) (s : AState) : Nat := ea c (s.x w.reg) w.off
def Row.val (c : Cfg) (w : Row) (s : AState) (r : Nat) : Nat :=
  match w.saved r with
  | none => s.x r
  | some k => leNat (s.mem.rd (ea c (w.cfa c s) k) c.w)

/-- An unwinder finds the frame address `C`, the return address `p` and in the registers `kept` the values `g`. -/
structure Unw (c : Cfg) (kept : Nat → Prop) (w : Row) (s : AState) (C p : Nat) (g : Nat → Nat) : Prop where
  cfa : w.cfa c s = C
  ret : w.val c s 1 = p
  regs : ∀ r, kept r → w.val c s r = g r

/-- What it reads lies above the stack pointer. -/
def Row.Above (c : Cfg) (spr : Nat) (w : Row) (s : AState) : Prop :=
  ∀ r k, w.saved r = some k → s.x spr ≤ ea c (w.cfa c s) k

/-- An interruption. -/
structure Havoc (lo spr : Nat) (s t : AState) : Prop where
  x : t.x = s.x
  f : t.f = s.f
  mem : ∀ a, a < lo ∨ s.x spr ≤ a → t.mem a = s.mem a

/-- Executing `P` from `s` with interruptions, the machine can be in state `t` with `Q` left to execute. -/
inductive Visits (c : Cfg) (lo spr : Nat) : List Ins → AState → List Ins → AState → Prop
  | here {P s t} : Havoc lo spr s t → Visits c lo spr P s P t
  | next {i P s s' Q t} : Havoc lo spr s s' → Visits c lo spr P (exec c s' i) Q t → Visits c lo spr (i :: P) s Q t

/-- The bytes that an instruction loads. -/
def loads (c : Cfg) (s : AState) : Ins → Option (Nat × Nat)
  | .larg _ k b => some (ea c (s.x b) k, c.w)
  | .flarg _ k b => some (ea c (s.x b) k, c.fl)
  | _ => none

theorem Havoc.refl {lo spr : Nat} {s : AState} : Havoc lo spr s s := ⟨rfl, rfl, fun _ _ => rfl⟩

theorem Havoc.trans {lo spr : Nat} {s t u : AState} (h : Havoc lo spr s t) (h' : Havoc lo spr t u) : Havoc lo spr s u :=
  ⟨h'.x.trans h.x, h'.f.trans h.f, fun a ha => (h'.mem a (by rw [h.x]; exact ha)).trans (h.mem a ha)⟩

/-- Code that loads only from above the stack pointer (or from outside the stack) and does not lower it. -/
def Up (c : Cfg) (lo spr : Nat) : List Ins → AState → Prop
  | [], _ => True
  | i :: is, s => (∀ a n, loads c s i = some (a, n) → a + n ≤ lo ∨ s.x spr ≤ a) ∧ s.x spr ≤ (exec c s i).x spr ∧
      Up c lo spr is (exec c s i)

/-- The rows describe every state of the uninterrupted execution; the last row is for the end. -/
def Good (c : Cfg) (spr : Nat) (kept : Nat → Prop) (C p : Nat) (g : Nat → Nat) : List Ins → List Row → AState → Prop
  | [], [w], s => Unw c kept w s C p g ∧ w.Above c spr s
  | i :: is, w :: ws, s => (Unw c kept w s C p g ∧ w.Above c spr s) ∧ Good c spr kept C p g is ws (exec c s i)
  | _, _, _ => False

theorem exec_havoc {c : Cfg} {lo spr : Nat} {s t : AState} {i : Ins} (h : Havoc lo spr s t)
    (hl : ∀ a n, loads c s i = some (a, n) → a + n ≤ lo ∨ s.x spr ≤ a) (hu : s.x spr ≤ (exec c s i).x spr) :
    Havoc lo spr (exec c s i) (exec c t i) := by
  obtain ⟨sx, sf, sm⟩ := s
  obtain ⟨tx, tf, tm⟩ := t
  obtain ⟨h1, h2, h3⟩ := h
  dsimp only at h1 h2 h3
  subst h1 h2
  have hrd : ∀ a n, (a + n ≤ lo ∨ tx spr ≤ a) → tm.rd a n = sm.rd a n := fun a n ha =>
    Mem.rd_congr fun j hj => h3 _ (by omega)
  have hwr : ∀ a bs, ∀ x, x < lo ∨ tx spr ≤ x → (Mem.wr tm a bs) x = (Mem.wr sm a bs) x := by
    intro a bs x hx
    by_cases h : x < a ∨ a + bs.length ≤ x
    · rw [Mem.wr_out _ _ _ _ h, Mem.wr_out _ _ _ _ h, h3 x hx]
    · obtain ⟨j, rfl⟩ : ∃ j, x = a + j := ⟨x - a, by omega⟩
      rw [Mem.wr_in _ _ _ _ (by omega), Mem.wr_in _ _ _ _ (by omega)]
  cases i with
  | addi d b k => exact ⟨rfl, rfl, fun a ha => h3 a (by dsimp only [exec] at hu ha ⊢; omega)⟩
  | larg d k b =>
    refine ⟨?_, rfl, fun a ha => h3 a (by dsimp only [exec] at hu ha ⊢; omega)⟩
    dsimp only [exec]
    rw [hrd _ _ (hl _ _ rfl)]
  | sarg r k b => exact ⟨rfl, rfl, fun a ha => hwr _ _ a ha⟩
  | flarg d k b =>
    refine ⟨rfl, ?_, fun a ha => h3 a ha⟩
    dsimp only [exec]
    rw [hrd _ _ (hl _ _ rfl)]
  | fsarg r k b => exact ⟨rfl, rfl, fun a ha => hwr _ _ a ha⟩

theorem unw_havoc {c : Cfg} {lo spr : Nat} {kept : Nat → Prop} {w : Row} {s t : AState} {C p : Nat} {g : Nat → Nat}
    (h : Unw c kept w s C p g) (ha : w.Above c spr s) (hh : Havoc lo spr s t) : Unw c kept w t C p g := by
  have hc : w.cfa c t = w.cfa c s := by unfold Row.cfa; rw [hh.x]
  have hv : ∀ r, w.val c t r = w.val c s r := by
    intro r
    unfold Row.val
    rw [hc]
    cases hs : w.saved r with
    | none => dsimp only; rw [hh.x]
    | some k =>
      dsimp only
      have := ha r k hs
      exact congrArg leNat (Mem.rd_congr fun j hj => hh.mem _ (by omega))
  exact ⟨hc.trans h.cfa, (hv 1).trans h.ret, fun r hr => (hv r).trans (h.regs r hr)⟩

/-- An interrupted execution keeps in step with the uninterrupted one. -/
theorem visits_ok {c : Cfg} {lo spr : Nat} {P Q : List Ins} {s0 t : AState} (hv : Visits c lo spr P s0 Q t) :
    ∀ {s : AState}, Havoc lo spr s s0 → Up c lo spr P s →
      (Q = [] → Havoc lo spr (run c P s) t) ∧ Q.length ≤ P.length ∧
      ∀ {kept : Nat → Prop} {C p : Nat} {g : Nat → Nat} {ws : List Row}, Good c spr kept C p g P ws s →
        ∃ w, ws[P.length - Q.length]? = some w ∧ Unw c kept w t C p g := by
  induction hv with
  | here h =>
    intro s hs _
    refine ⟨fun hq => by subst hq; exact hs.trans h, Nat.le_refl _, fun {kept C p g ws} hg => ?_⟩
    rw [Nat.sub_self]
    rename_i P _ _ _
    have : ∃ w ws', ws = w :: ws' ∧ Unw c kept w s C p g ∧ w.Above c spr s := by
      match P, ws, hg with
      | [], [w], hg => exact ⟨w, [], rfl, hg⟩
      | _ :: _, w :: ws, hg => exact ⟨w, ws, rfl, hg.1⟩
    obtain ⟨w, ws', rfl, h1, h2⟩ := this
    exact ⟨w, rfl, unw_havoc h1 h2 (hs.trans h)⟩
  | next h _ ih =>
    intro s hs hu
    obtain ⟨u1, u2, u3⟩ := hu
    obtain ⟨i1, i2, i3⟩ := ih (exec_havoc (hs.trans h) u1 u2) u3
    refine ⟨fun hq => by rw [run_cons]; exact i1 hq, by rw [List.length_cons]; omega, fun {kept C p g ws} hg => ?_⟩
    match ws, hg with
    | w :: ws, hg =>
      obtain ⟨w', h1, h2⟩ := i3 hg.2
      refine ⟨w', ?_, h2⟩
      rw [List.length_cons, Nat.succ_sub i2, List.getElem?_cons_succ, h1]

theorem up_append {c : Cfg} {lo spr : Nat} {Q : List Ins} : ∀ {P : List Ins} {s : AState}, Up c lo spr P s → Up c lo spr Q (run c P s) →
    Up c lo spr (P ++ Q) s
  | [], _, _, h => h
  | _ :: _, _, h, h' => ⟨h.1, h.2.1, up_append h.2.2 h'⟩

theorem good_append {c : Cfg} {spr : Nat} {kept : Nat → Prop} {C p : Nat} {g : Nat → Nat} {Q : List Ins} {w : Row} {vs : List Row} :
    ∀ {P : List Ins} {ws : List Row} {s : AState}, Good c spr kept C p g P (ws ++ [w]) s →
      Good c spr kept C p g Q (w :: vs) (run c P s) → Good c spr kept C p g (P ++ Q) (ws ++ w :: vs) s
  | [], [], _, _, h => h
  | [], [_], _, h, _ => False.elim h
  | [], _ :: _ :: _, _, h, _ => False.elim h
  | i :: P, [], s, h, _ => by
    exfalso
    have h2 := h.2
    cases P <;> exact h2
  | i :: P, w' :: ws, s, h, h' => ⟨h.1, good_append h.2 h'⟩

/-- Instructions that leave the registers `K` alone, compute addresses from them, load from above the stack pointer and
store outside of `[A, B)`; `s0` gives the values of `K`. -/
def Quiet (c : Cfg) (lo spr : Nat) (K : Nat → Prop) (A B : Nat) (s0 : AState) : Ins → Prop
  | .addi d _ _ => ¬K d
  | .larg d k b => ¬K d ∧ K b ∧ (ea c (s0.x b) k + c.w ≤ lo ∨ s0.x spr ≤ ea c (s0.x b) k)
  | .sarg _ k b => K b ∧ (ea c (s0.x b) k + c.w ≤ A ∨ B ≤ ea c (s0.x b) k)
  | .flarg _ k b => K b ∧ (ea c (s0.x b) k + c.fl ≤ lo ∨ s0.x spr ≤ ea c (s0.x b) k)
  | .fsarg _ k b => K b ∧ (ea c (s0.x b) k + c.fl ≤ A ∨ B ≤ ea c (s0.x b) k)

/-- States that agree on `K` and `[A, B)`. -/
structure Same (K : Nat → Prop) (A B fl : Nat) (s0 s : AState) : Prop where
  x : ∀ r, K r → s.x r = s0.x r
  mem : ∀ a, A ≤ a → a < B → s.mem a = s0.mem a
  f : ∀ r, (s.f r).length = fl

theorem exec_same {c : Cfg} {lo spr A B : Nat} {K : Nat → Prop} {s0 s : AState} {i : Ins} (hs : Same K A B c.fl s0 s)
    (hq : Quiet c lo spr K A B s0 i) : Same K A B c.fl s0 (exec c s i) := by
  cases i with
  | addi d b k =>
    refine ⟨fun r hr => ?_, hs.mem, hs.f⟩
    have : r ≠ d := fun h => hq (h ▸ hr)
    exact (upd_ne this).trans (hs.x r hr)
  | larg d k b =>
    refine ⟨fun r hr => ?_, hs.mem, hs.f⟩
    have : r ≠ d := fun h => hq.1 (h ▸ hr)
    exact (upd_ne this).trans (hs.x r hr)
  | sarg r k b =>
    refine ⟨hs.x, fun a h1 h2 => ?_, hs.f⟩
    have := hq.2
    dsimp only [exec]
    rw [hs.x b hq.1, Mem.wr_out _ _ _ _ (by rw [leBytes_length]; omega), hs.mem a h1 h2]
  | flarg d k b =>
    refine ⟨hs.x, hs.mem, fun r => ?_⟩
    dsimp only [exec]
    unfold upd
    split
    · exact Mem.rd_length _ _ _
    · exact hs.f r
  | fsarg r k b =>
    refine ⟨hs.x, fun a h1 h2 => ?_, hs.f⟩
    have := hq.2
    dsimp only [exec]
    rw [hs.x b hq.1, Mem.wr_out _ _ _ _ (by rw [hs.f]; omega), hs.mem a h1 h2]

theorem run_same {c : Cfg} {lo spr A B : Nat} {K : Nat → Prop} {s0 : AState} : ∀ {P : List Ins} {s : AState}, Same K A B c.fl s0 s →
    (∀ i ∈ P, Quiet c lo spr K A B s0 i) → Same K A B c.fl s0 (run c P s)
  | [], _, h, _ => h
  | i :: P, _, h, hq => run_same (P := P) (exec_same h (hq i (.head _))) fun j hj => hq j (.tail _ hj)

/-- Such instructions as a block. -/
theorem quiet_block {c : Cfg} {lo spr A B : Nat} {K kept : Nat → Prop} {s0 : AState} {C p : Nat} {g : Nat → Nat} {w : Row} (hsp : K spr) (hw : K w.reg)
    (hk : ∀ r, kept r ∨ r = 1 → w.saved r = none → K r) (ha : ∀ r k, w.saved r = some k → A ≤ ea c (w.cfa c s0) k ∧ ea c (w.cfa c s0) k + c.w ≤ B)
    (hu : Unw c kept w s0 C p g) (hab : w.Above c spr s0) : ∀ {P : List Ins} {s : AState}, Same K A B c.fl s0 s →
    (∀ i ∈ P, Quiet c lo spr K A B s0 i) → Up c lo spr P s ∧ Good c spr kept C p g P (List.replicate (P.length + 1) w) s := by
  have hgood : ∀ s, Same K A B c.fl s0 s → Unw c kept w s C p g ∧ w.Above c spr s := by
    intro s hs
    have hc : w.cfa c s = w.cfa c s0 := by unfold Row.cfa; rw [hs.x _ hw]
    have hv : ∀ r, kept r ∨ r = 1 → w.val c s r = w.val c s0 r := by
      intro r hr
      unfold Row.val
      rw [hc]
      cases hsv : w.saved r with
      | none => exact hs.x r (hk r hr hsv)
      | some k =>
        have := ha r k hsv
        exact congrArg leNat (Mem.rd_congr fun j hj => hs.mem _ (by omega) (by omega))
    refine ⟨⟨hc.trans hu.cfa, (hv 1 (.inr rfl)).trans hu.ret, fun r hr => (hv r (.inl hr)).trans (hu.regs r hr)⟩, fun r k h => ?_⟩
    rw [hc, hs.x _ hsp]
    exact hab r k h
  intro P
  induction P with
  | nil => intro s hs _; exact ⟨trivial, hgood s hs⟩
  | cons i P ih =>
    intro s hs hq
    have hqi := hq i (.head _)
    have hs' := exec_same hs hqi
    obtain ⟨u1, u2⟩ := ih hs' fun j hj => hq j (.tail _ hj)
    refine ⟨⟨fun a n hl => ?_, by rw [hs'.x _ hsp, hs.x _ hsp], u1⟩, hgood s hs, u2⟩
    cases i with
    | larg d k b =>
      cases hl
      rw [hs.x _ hqi.2.1, hs.x _ hsp]
      exact hqi.2.2
    | flarg d k b =>
      cases hl
      rw [hs.x _ hqi.1, hs.x _ hsp]
      exact hqi.2
    | _ => cases hl

theorem mem_each {n : Nat} {f : Nat → Ins} {i : Ins} (h : i ∈ each n f) : ∃ k, k < n ∧ i = f k := by
  unfold each at h
  obtain ⟨k, hk, rfl⟩ := List.mem_map.1 h
  exact ⟨k, List.mem_range.1 hk, rfl⟩

end Verif.RV.Asm
