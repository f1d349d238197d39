import Verif.Spec.Seg
import Verif.Closures.TempWitness

/-
What a successful or failed `dlmmap` does to the address space.
-/
namespace Verif.Dual
open Verif

/-- Storage that a segment may use. -/
def PhysOk (st : St) : Phys → Prop
  | .file id o => ∃ fd f, st.execfd = some fd ∧ st.files fd = some f ∧ f.id = id ∧ o < st.execsize
  | .anon t _ => t < st.clock

/-- The mappings in use are kept. -/
def Ext (vm vm' : VM) : Prop := ∀ x pg, vm x = some pg → vm' x = some pg

theorem Ext.refl (vm : VM) : Ext vm vm := fun _ _ h => h

theorem Ext.trans {a b d : VM} (h : Ext a b) (k : Ext b d) : Ext a d := fun x pg hx => k x pg (h x pg hx)

/-- Unused addresses. -/
theorem Ext.none {a b : VM} (h : Ext a b) {x : Nat} (hx : b x = none) : a x = none := by
  cases e : a x with
  | none => rfl
  | some pg => rw [h x pg e] at hx; simp at hx

theorem mmap_ext {w : World} (hw : FreshMap w) (len : Nat) (pg : Nat → Pg) (st : St) : Ext st.vm (st.mmap w len pg).2.vm := by
  unfold St.mmap
  split
  · exact Ext.refl _
  · rename_i a ha
    intro x p hx
    simp only
    rw [if_neg]
    · exact hx
    · rintro ⟨h1, h2⟩
      rw [hw _ _ _ _ ha x h1 h2] at hx
      simp at hx

theorem mmap_some {w : World} (hw : FreshMap w) {len : Nat} {pg : Nat → Pg} {st st' : St} {a : Nat}
    (h : st.mmap w len pg = (some a, st')) : (∀ x, a ≤ x → x < a + len → st.vm x = none) ∧
      (∀ o, o < len → st'.vm (a + o) = some (pg o)) ∧ st'.words = st.words ∧ st'.clock = st.clock + 1 ∧
      (∀ x, ¬ (a ≤ x ∧ x < a + len) → st'.vm x = st.vm x) := by
  unfold St.mmap at h
  split at h
  · simp at h
  · rename_i b hb
    simp only [Prod.mk.injEq, Option.some.injEq] at h
    obtain ⟨rfl, rfl⟩ := h
    refine ⟨fun x h1 h2 => hw _ _ _ _ hb x h1 h2, fun o ho => ?_, rfl, rfl, fun x hx => ?_⟩
    · simp only
      rw [if_pos ⟨by omega, by omega⟩]
      simp
    · simp only
      rw [if_neg hx]

/-- Files keep their identity. -/
def SameFile (fd : Nat) (st st' : St) : Prop := (st.files fd).map (·.id) = (st'.files fd).map (·.id)

theorem write_file {w : World} {fd n r : Nat} {st st' : St} (h : st.write w fd n = .ok (r, st')) :
    SameFile fd st st' ∧ st'.vm = st.vm ∧ st.clock ≤ st'.clock := by
  unfold St.write at h
  split at h
  · simp at h
  · rename_i f hf
    simp only [Except.ok.injEq, Prod.mk.injEq] at h
    obtain ⟨_, rfl⟩ := h
    exact ⟨by simp [SameFile, hf], rfl, Nat.le_succ _⟩

theorem allocSpace_file {c : Cfg} {w : World} {fd : Nat} : ∀ {k len : Nat} {st : St} {b} {st' : St},
    allocSpace c w fd k len st = .ok (b, st') → SameFile fd st st' ∧ st'.vm = st.vm ∧ st.clock ≤ st'.clock
  | k, 0, st, b, st', h => by
    have : allocSpace c w fd k 0 st = .ok (true, st) := by cases k <;> rfl
    rw [this] at h
    simp only [Except.ok.injEq, Prod.mk.injEq] at h
    obtain ⟨_, rfl⟩ := h
    exact ⟨rfl, rfl, le_rfl⟩
  | 0, len + 1, st, b, st', h => by simp [allocSpace] at h
  | k + 1, len + 1, st, b, st', h => by
    unfold allocSpace at h
    generalize (if len + 1 < c.page then len + 1 else c.page) = n at *
    cases hw : st.write w fd n with
    | error e => simp [hw, bind, Except.bind] at h
    | ok x =>
      obtain ⟨r, st1⟩ := x
      obtain ⟨a1, a2, a3⟩ := write_file hw
      simp only [hw, bind, Except.bind] at h
      split at h
      · simp only [pure, Except.pure, Except.ok.injEq, Prod.mk.injEq] at h
        obtain ⟨_, rfl⟩ := h
        exact ⟨a1, a2, a3⟩
      · obtain ⟨b1, b2, b3⟩ := allocSpace_file h
        exact ⟨a1.trans b1, b2.trans a2, a3.trans b3⟩

theorem ftruncate_file {w : World} {fd len : Nat} {st st' : St} (h : st.ftruncate w fd len = .ok st') :
    SameFile fd st st' ∧ st'.vm = st.vm ∧ st.clock ≤ st'.clock := by
  unfold St.ftruncate at h
  split at h
  · simp at h
  · rename_i f hf
    simp only [Except.ok.injEq] at h
    subst h
    split
    · exact ⟨by simp [SameFile, hf], rfl, Nat.le_succ _⟩
    · exact ⟨rfl, rfl, Nat.le_succ _⟩

theorem leaveList_grow {c : Cfg} {w : World} {offset : Nat} {st st' : St} (h : leaveList c w offset st = .ok st') : Grow w st st' := by
  unfold leaveList at h
  split at h
  · simp at h
  · split at h
    · simp only [bind, Except.bind, pure, Except.pure] at h
      split at h
      · simp at h
      · rename_i v hv
        simp only [Except.ok.injEq] at h
        subst h
        exact optsNext_grow (b := v.1) (by rw [hv])
    · simp only [pure, Except.pure, Except.ok.injEq] at h
      subst h
      exact Grow.refl w st

theorem Grow.sameFile {w : World} {st st' : St} (h : Grow w st st') (hw : FreshFd w) {fd : Nat} (hf : st.files fd ≠ none) :
    SameFile fd st st' := by
  obtain ⟨f, hf⟩ := Option.ne_none_iff_exists'.1 hf
  unfold SameFile
  rw [hf, h.keep hw fd f hf]

/-- The new mappings made by `dlmmap` with result `a`: the code view starts at `b`; `mk` is the
storage. -/
structure NewMap (y : Sys) (st st' : St) (wd a len b : Nat) (mk : Nat → Phys) : Prop where
  fresh : ∀ x, (a ≤ x ∧ x < a + len) ∨ (b ≤ x ∧ x < b + len) → st.vm x = none
  dis : b = a ∨ ∀ x, ¬ ((a ≤ x ∧ x < a + len) ∧ (b ≤ x ∧ x < b + len))
  ext : Ext st.vm st'.vm
  data : ∀ o, o < len → ∃ d, st'.vm (a + o) = some d ∧ d.phys = mk o ∧ d.w = true ∧ (b ≠ a → d.x = false) ∧
    (b = a → d.x = true ∨ y.tramp = true ∨ (y.mprotect = true ∧ y.emutramp = true))
  code : ∀ o, o < len → ∃ d, st'.vm (b + o) = some d ∧ d.phys = mk o ∧ (b ≠ a → d.x = true ∧ d.w = false)
  word : st'.words (mk (len - wd)) = (b : Int) - a
  inj : ∀ o o', mk o = mk o' → o = o'
  new : ∀ o, o < len → PhysOk st' (mk o)
  old : ∀ p, PhysOk st p → PhysOk st' p ∧ ∀ o, p ≠ mk o

/-- After a failed `dlmmap`. -/
structure NoMap (st st' : St) : Prop where
  ext : Ext st.vm st'.vm
  old : ∀ p, PhysOk st p → PhysOk st' p

theorem physOk_of {st st' : St} {fd : Nat} (h1 : st.execfd = some fd) (h2 : st'.execfd = st.execfd) (h3 : st.execsize ≤ st'.execsize)
    (h4 : SameFile fd st st') (h5 : st.clock ≤ st'.clock) {p : Phys} (h : PhysOk st p) : PhysOk st' p := by
  cases p with
  | anon t o => exact Nat.lt_of_lt_of_le h h5
  | file id o =>
    obtain ⟨fd', f, a1, a2, a3, a4⟩ := h
    rw [h1] at a1
    obtain rfl := Option.some.inj a1
    unfold SameFile at h4
    rw [a2] at h4
    cases e : st'.files fd with
    | none => rw [e] at h4; simp at h4
    | some f' =>
      rw [e] at h4
      simp only [Option.map_some, Option.some.injEq] at h4
      exact ⟨fd, f', h2.trans h1, e, by rw [← h4, a3], by omega⟩

/-- Anonymous storage is kept as time goes on; without a mapped file there is nothing else. -/
theorem physOk_zero {st st' : St} (h1 : st.execsize = 0) (h5 : st.clock ≤ st'.clock) {p : Phys} (h : PhysOk st p) : PhysOk st' p := by
  cases p with
  | anon t o => exact Nat.lt_of_lt_of_le h h5
  | file id o =>
    obtain ⟨fd', f, a1, a2, a3, a4⟩ := h
    omega

theorem munmap_fresh {w : World} {a len : Nat} {vm0 : VM} {st : St} (hx : Ext vm0 st.vm) (hf : ∀ x, a ≤ x → x < a + len → vm0 x = none) :
    Ext vm0 (st.munmap w a len).2.vm := by
  unfold St.munmap
  split
  · intro x pg h
    simp only
    rw [if_neg]
    · exact hx x pg h
    · rintro ⟨h1, h2⟩
      rw [hf x h1 h2] at h
      simp at h
  · exact hx

theorem write_keep {w : World} {fd n r : Nat} {st st' : St} (h : st.write w fd n = .ok (r, st')) : Keep st st' := by
  unfold St.write at h
  split at h
  · simp at h
  · simp only [Except.ok.injEq, Prod.mk.injEq] at h
    obtain ⟨_, rfl⟩ := h
    exact ⟨⟨rfl, rfl, rfl⟩, rfl, rfl, rfl⟩

theorem allocSpace_keep {c : Cfg} {w : World} {fd : Nat} : ∀ {k len : Nat} {st : St} {b} {st' : St},
    allocSpace c w fd k len st = .ok (b, st') → Keep st st'
  | k, 0, st, b, st', h => by
    have : allocSpace c w fd k 0 st = .ok (true, st) := by cases k <;> rfl
    rw [this] at h
    simp only [Except.ok.injEq, Prod.mk.injEq] at h
    obtain ⟨_, rfl⟩ := h
    exact Keep.refl _
  | 0, len + 1, st, b, st', h => by simp [allocSpace] at h
  | k + 1, len + 1, st, b, st', h => by
    unfold allocSpace at h
    generalize (if len + 1 < c.page then len + 1 else c.page) = n at *
    cases hw : st.write w fd n with
    | error e => simp [hw, bind, Except.bind] at h
    | ok x =>
      obtain ⟨r, st1⟩ := x
      simp only [hw, bind, Except.bind] at h
      split at h
      · simp only [pure, Except.pure, Except.ok.injEq, Prod.mk.injEq] at h
        obtain ⟨_, rfl⟩ := h
        exact write_keep hw
      · exact (write_keep hw).trans (allocSpace_keep h)

theorem ftruncate_keep {w : World} {fd len : Nat} {st st' : St} (h : st.ftruncate w fd len = .ok st') : Keep st st' := by
  unfold St.ftruncate at h
  split at h
  · simp at h
  · simp only [Except.ok.injEq] at h
    subst h
    split <;> exact ⟨⟨rfl, rfl, rfl⟩, rfl, rfl, rfl⟩

theorem mmap_clock (w : World) (len : Nat) (pg : Nat → Pg) (st : St) : (st.mmap w len pg).2.clock = st.clock + 1 := by
  unfold St.mmap
  split <;> rfl

theorem munmap_clock (w : World) (a len : Nat) (st : St) : (st.munmap w a len).2.clock = st.clock + 1 := by
  unfold St.munmap
  split <;> rfl

theorem SameFile.trans {fd : Nat} {a b d : St} (h : SameFile fd a b) (k : SameFile fd b d) : SameFile fd a d := Eq.trans h k

/-- A store of a word. -/
theorem setW_spec {st st' : St} {a : Nat} {v : Int} (h : st.setW a v = .ok st') :
    st'.vm = st.vm ∧ st'.execfd = st.execfd ∧ st'.execsize = st.execsize ∧ st'.files = st.files ∧
      (∀ p, (∃ d, st.vm a = some d ∧ d.phys = p) → st'.words p = v) ∧ st'.clock = st.clock := by
  unfold St.setW at h
  split at h
  · rename_i pg hpg
    split at h
    · simp only [Except.ok.injEq] at h
      subst h
      refine ⟨rfl, rfl, rfl, rfl, ?_, rfl⟩
      rintro p ⟨d, hd, rfl⟩
      rw [hpg] at hd
      obtain rfl := Option.some.inj hd
      simp
    · simp at h
  · simp at h

/-- Result of `mapFile`. -/
def MapRes (y : Sys) (c : Cfg) (fd len : Nat) (st st' : St) : Option (Option Nat) → Prop
  | none => st.execsize = 0 ∧ st'.execsize = 0 ∧ Ext st.vm st'.vm
  | some none => st'.execsize = st.execsize ∧ SameFile fd st st' ∧ Ext st.vm st'.vm
  | some (some a) => st'.execsize = st.execsize + len ∧ SameFile fd st st' ∧ ∃ b mk, NewMap y st st' c.word a len b mk

theorem mapFile_map {c : Cfg} {w : World} {y : Sys} (hM : FreshMap w) (hF : FreshFd w) {fd len : Nat} (hw : 0 < c.word)
    (hlen : c.word ≤ len) {st st' : St} {r} (he : st.execfd = some fd) (h : mapFile c w fd len st = .ok (r, st')) :
    st.clock ≤ st'.clock ∧ st'.execfd = some fd ∧ MapRes y c fd len st st' r := by
  unfold mapFile at h
  cases ha : allocSpace c w fd len len st with
  | error e => simp [ha, bind, Except.bind] at h
  | ok x =>
  obtain ⟨ok, st1⟩ := x
  simp only [ha, bind, Except.bind] at h
  obtain ⟨f1, f2, f3⟩ := allocSpace_file ha
  have k1 : Keep st st1 := allocSpace_keep ha
  cases ok with
  | false =>
    simp only [if_true, pure, Except.pure, Except.ok.injEq, Prod.mk.injEq] at h
    obtain ⟨rfl, rfl⟩ := h
    exact ⟨f3, k1.execfd.trans he, k1.execsize, f1, by rw [f2]; exact Ext.refl _⟩
  | true =>
  simp only [Bool.true_eq_false, if_false] at h
  cases hf : st1.files fd with
  | none => simp [hf] at h
  | some f =>
  simp only [hf] at h
  have kk := mmap_keep w len (fun o => ⟨.file f.id (st.execsize + o), false, true⟩) st1
  have ke := mmap_ext hM len (fun o => ⟨.file f.id (st.execsize + o), false, true⟩) st1
  have kc := mmap_clock w len (fun o => ⟨.file f.id (st.execsize + o), false, true⟩) st1
  cases hm : st1.mmap w len (fun o => ⟨.file f.id (st.execsize + o), false, true⟩) with
  | mk ptr st2 =>
  rw [hm] at kk ke kc
  obtain ⟨k2, hfiles2⟩ := kk
  simp only at k2 ke kc hfiles2
  simp only [hm] at h
  have c2 : st.clock ≤ st2.clock := by omega
  have k12 := k1.trans k2
  have s2 : SameFile fd st st2 := by unfold SameFile; rw [hfiles2]; exact f1
  cases ptr with
  | none =>
    simp only at h
    split at h
    · rename_i hz
      simp only [pure, Except.pure, Except.ok.injEq, Prod.mk.injEq] at h
      obtain ⟨rfl, rfl⟩ := h
      exact ⟨c2, k12.execfd.trans he, hz, by show st2.execsize = 0; rw [k12.execsize, hz], by rw [← f2]; exact ke⟩
    · cases ht : st2.ftruncate w fd st.execsize with
      | error e => simp [ht] at h
      | ok st3 =>
        simp only [ht, pure, Except.pure, Except.ok.injEq, Prod.mk.injEq] at h
        obtain ⟨rfl, rfl⟩ := h
        obtain ⟨t1, t2, t3⟩ := ftruncate_file ht
        have k3 := ftruncate_keep ht
        exact ⟨c2.trans t3, (k12.trans k3).execfd.trans he, (k12.trans k3).execsize, s2.trans t1, by rw [t2, ← f2]; exact ke⟩
  | some ptr =>
    simp only at h
    obtain ⟨m1, m2, m3, m4, m5⟩ := mmap_some hM hm
    cases hl : leaveList c w st.execsize st2 with
    | error e => simp [hl] at h
    | ok st3 =>
    simp only [hl] at h
    have g3 := leaveList_grow hl
    have hne2 : st2.files fd ≠ none := by rw [hfiles2, hf]; simp
    have s3 : SameFile fd st st3 := s2.trans (g3.sameFile hF hne2)
    have kk := mmap_keep w len (fun o => ⟨.file f.id (st.execsize + o), true, false⟩) st3
    have ke3 := mmap_ext hM len (fun o => ⟨.file f.id (st.execsize + o), true, false⟩) st3
    have kc3 := mmap_clock w len (fun o => ⟨.file f.id (st.execsize + o), true, false⟩) st3
    cases hm3 : st3.mmap w len (fun o => ⟨.file f.id (st.execsize + o), true, false⟩) with
    | mk start st4 =>
    rw [hm3] at kk ke3 kc3
    obtain ⟨k4, hfiles4⟩ := kk
    simp only at k4 ke3 kc3 hfiles4
    simp only [hm3] at h
    have c4 : st.clock ≤ st4.clock := by have := g3.clock; omega
    have e4 : Ext st.vm st4.vm := by
      rw [← f2]
      refine Ext.trans ke ?_
      rw [← g3.vm]
      exact ke3
    have s4 : SameFile fd st st4 := by unfold SameFile; rw [hfiles4]; exact s3
    have x4 : st4.execfd = some fd := by rw [k4.execfd, g3.execfd, k12.execfd, he]
    have z4 : st4.execsize = st.execsize := by rw [k4.execsize, g3.execsize, k12.execsize]
    cases start with
    | none =>
      simp only at h
      have um := munmap_fresh (w := w) (a := ptr) (len := len) e4 (fun x h1 h2 => by rw [← f2]; exact m1 x h1 h2)
      have uk := munmap_keep w ptr len st4
      have uc := munmap_clock w ptr len st4
      cases hu : st4.munmap w ptr len with
      | mk b st5 =>
      rw [hu] at um uk uc
      obtain ⟨uk1, uk2⟩ := uk
      simp only at um uk1 uk2 uc
      simp only [hu] at h
      cases ht : st5.ftruncate w fd st.execsize with
      | error e => simp [ht] at h
      | ok st6 =>
        simp only [ht, pure, Except.pure, Except.ok.injEq, Prod.mk.injEq] at h
        obtain ⟨rfl, rfl⟩ := h
        obtain ⟨t1, t2, t3⟩ := ftruncate_file ht
        have k6 := ftruncate_keep ht
        refine ⟨by omega, by rw [k6.execfd, uk1.execfd, x4], by rw [k6.execsize, uk1.execsize, z4], ?_, by rw [t2]; exact um⟩
        refine SameFile.trans s4 (SameFile.trans ?_ t1)
        unfold SameFile; rw [uk2]
    | some start =>
      simp only at h
      obtain ⟨n1, n2, n3, n4, n5⟩ := mmap_some hM hm3
      cases hs : st4.setW (start + len - c.word) ((ptr : Int) - (start : Int)) with
      | error e => simp [hs] at h
      | ok st5 =>
        simp only [hs, pure, Except.pure, Except.ok.injEq, Prod.mk.injEq] at h
        obtain ⟨rfl, rfl⟩ := h
        obtain ⟨w1, w2, w3, w4, w5, w6⟩ := setW_spec hs
        have hid : ∃ f', st4.files fd = some f' ∧ f'.id = f.id := by
          have := f1.symm.trans s4
          rw [hf] at this
          cases e : st4.files fd with
          | none => rw [e] at this; simp at this
          | some f' =>
            rw [e] at this
            simp only [Option.map_some, Option.some.injEq] at this
            exact ⟨f', rfl, this.symm⟩
        obtain ⟨f', hf', hfid⟩ := hid
        refine ⟨by show st.clock ≤ st5.clock; omega, by show st5.execfd = _; rw [w2, x4],
          by show st5.execsize + len = _; rw [w3, z4], by unfold SameFile; show _ = (st5.files fd).map _; rw [w4]; exact s4, ptr, fun o => .file f.id (st.execsize + o), ?_⟩
        have hdis : ∀ x, ¬ ((start ≤ x ∧ x < start + len) ∧ (ptr ≤ x ∧ x < ptr + len)) := by
          rintro x ⟨⟨h1, h2⟩, h3, h4⟩
          have := n1 x h1 h2
          rw [g3.vm] at this
          have hh := m2 (x - ptr) (by omega)
          rw [Nat.add_sub_cancel' h3] at hh
          rw [hh] at this
          simp at this
        have hne : ptr ≠ start := by
          rintro rfl
          exact hdis ptr ⟨⟨le_rfl, by omega⟩, le_rfl, by omega⟩
        constructor
        · rintro x (⟨h1, h2⟩ | ⟨h1, h2⟩)
          · rw [← f2]
            refine Ext.none ke ?_
            rw [← g3.vm]
            exact n1 x h1 h2
          · rw [← f2]; exact m1 x h1 h2
        · exact .inr hdis
        · show Ext st.vm st5.vm
          rw [w1]; exact e4
        · intro o ho
          refine ⟨⟨.file f.id (st.execsize + o), true, false⟩, ?_, rfl, rfl, fun _ => rfl, fun e => absurd e hne⟩
          show st5.vm _ = _
          rw [w1]; exact n2 o ho
        · intro o ho
          refine ⟨⟨.file f.id (st.execsize + o), false, true⟩, ?_, rfl, fun _ => ⟨rfl, rfl⟩⟩
          show st5.vm _ = _
          rw [w1, n5 (ptr + o) (fun hx => hdis (ptr + o) ⟨hx, by omega, by omega⟩), g3.vm]
          exact m2 o ho
        · show st5.words _ = _
          refine w5 _ ?_
          have := n2 (len - c.word) (by omega)
          rw [← Nat.add_sub_assoc hlen] at this
          exact ⟨_, this, rfl⟩
        · intro o o' e
          simp only [Phys.file.injEq] at e
          omega
        · intro o ho
          exact ⟨fd, f', by show st5.execfd = _; rw [w2, x4], by show st5.files fd = _; rw [w4, hf'], hfid, by show _ < st5.execsize + len; rw [w3, z4]; omega⟩
        · intro p hp
          refine ⟨physOk_of he (by show st5.execfd = _; rw [w2, x4, he]) (by show _ ≤ st5.execsize + len; rw [w3, z4]; omega)
            (by unfold SameFile; show _ = (st5.files fd).map _; rw [w4]; exact s4) (by show st.clock ≤ st5.clock; omega) hp, ?_⟩
          rintro o rfl
          obtain ⟨_, _, _, _, _, hlt⟩ := hp
          omega

theorem NoMap.refl (st : St) : NoMap st st := ⟨Ext.refl _, fun _ h => h⟩

theorem NoMap.trans {a b d : St} (h : NoMap a b) (k : NoMap b d) : NoMap a d :=
  ⟨h.ext.trans k.ext, fun p hp => k.old p (h.old p hp)⟩

theorem NewMap.pre {y : Sys} {st0 st st' : St} {wd a len b : Nat} {mk : Nat → Phys} (h0 : NoMap st0 st)
    (h : NewMap y st st' wd a len b mk) : NewMap y st0 st' wd a len b mk :=
  ⟨fun x hx => h0.ext.none (h.fresh x hx), h.dis, h0.ext.trans h.ext, h.data, h.code, h.word, h.inj, h.new,
    fun p hp => h.old p (h0.old p hp)⟩

/-- Result of `dlmmap`. -/
structure LockRes (y : Sys) (c : Cfg) (len : Nat) (st st' : St) (r : Option Nat) : Prop where
  clock : st.clock ≤ st'.clock
  zero : st'.execfd = none → st'.execsize = 0
  fail : r = none → NoMap st st'
  ok : ∀ a, r = some a → ∃ b mk, NewMap y st st' c.word a len b mk

theorem LockRes.pre {y : Sys} {c : Cfg} {len : Nat} {st0 st st' : St} {r} (h0 : NoMap st0 st) (hc : st0.clock ≤ st.clock)
    (h : LockRes y c len st st' r) : LockRes y c len st0 st' r :=
  ⟨hc.trans h.clock, h.zero, fun e => h0.trans (h.fail e), fun a e => by
    obtain ⟨b, mk, h⟩ := h.ok a e
    exact ⟨b, mk, h.pre h0⟩⟩

theorem retryOpen_map {c : Cfg} {w : World} {y : Sys} (hM : FreshMap w) (hF : FreshFd w) {len : Nat} (hw : 0 < c.word)
    (hlen : c.word ≤ len) : ∀ {k : Nat} {st st' : St} {r}, st.execsize = 0 → retryOpen c w len k st = .ok (r, st') →
      LockRes y c len st st' r
  | 0, _, _, _, _, h => by simp [retryOpen] at h
  | k + 1, st, st', r, hz, h => by
    unfold retryOpen at h
    cases hs : search c w k st with
    | error e => simp [hs, bind, Except.bind] at h
    | ok x =>
    obtain ⟨fd, st1⟩ := x
    have hg := search_grow hs
    simp only [hs, bind, Except.bind] at h
    have h0 : ∀ fd, NoMap st { st1 with execfd := fd } := fun fd =>
      ⟨by show Ext st.vm st1.vm; rw [hg.vm]; exact Ext.refl _, fun p hp => physOk_zero (st' := { st1 with execfd := fd }) hz hg.clock hp⟩
    cases fd with
    | none =>
      simp only [pure, Except.pure, Except.ok.injEq, Prod.mk.injEq] at h
      obtain ⟨rfl, rfl⟩ := h
      exact ⟨hg.clock, fun _ => by show st1.execsize = 0; rw [hg.execsize, hz], fun _ => h0 none, by simp⟩
    | some fd =>
      simp only at h
      cases hm : mapFile c w fd len { st1 with execfd := some fd } with
      | error e => simp [hm] at h
      | ok x =>
      obtain ⟨r1, st2⟩ := x
      simp only [hm] at h
      obtain ⟨m1, m2, m3⟩ := mapFile_map (y := y) hM hF hw hlen rfl hm
      have m1 : st1.clock ≤ st2.clock := m1
      have hc := hg.clock
      cases r1 with
      | none =>
        obtain ⟨q1, q2, q3⟩ := m3
        have := retryOpen_map (y := y) hM hF hw hlen q2 h
        refine this.pre ((h0 (some fd)).trans ⟨q3, fun p hp => physOk_zero q1 m1 hp⟩) (by omega)
      | some r1 =>
        simp only [pure, Except.pure, Except.ok.injEq, Prod.mk.injEq] at h
        obtain ⟨rfl, rfl⟩ := h
        refine LockRes.pre (h0 (some fd)) hc ⟨m1, fun e => by rw [m2] at e; simp at e, ?_, ?_⟩
        · rintro rfl
          obtain ⟨q1, q2, q3⟩ := m3
          exact ⟨q3, fun p hp => physOk_of rfl (by rw [m2]) (by rw [q1]) q2 m1 hp⟩
        · rintro a rfl
          exact m3.2.2

theorem dlmmapLocked_map {c : Cfg} {w : World} {y : Sys} (hM : FreshMap w) (hF : FreshFd w) {len : Nat} (hw : 0 < c.word)
    (hlen : c.word ≤ len) {k : Nat} {st st' : St} {r} (hz : st.execfd = none → st.execsize = 0)
    (h : dlmmapLocked c w k len st = .ok (r, st')) : LockRes y c len st st' r := by
  unfold dlmmapLocked at h
  cases he : st.execfd with
  | none =>
    simp only [he] at h
    have := retryOpen_map (y := y) hM hF hw hlen (st := { st with idx := 0, execfd := none }) (hz he) h
    exact LockRes.pre (st := { st with idx := 0, execfd := none }) ⟨Ext.refl _, fun p hp => physOk_zero (st' := { st with idx := 0, execfd := none }) (hz he) le_rfl hp⟩ le_rfl this
  | some fd =>
    simp only [he] at h
    cases hm : mapFile c w fd len st with
    | error e => simp [hm, bind, Except.bind] at h
    | ok x =>
      obtain ⟨r1, st1⟩ := x
      simp only [hm, bind, Except.bind] at h
      obtain ⟨m1, m2, m3⟩ := mapFile_map (y := y) hM hF hw hlen he hm
      cases r1 with
      | none =>
        obtain ⟨q1, q2, q3⟩ := m3
        exact (retryOpen_map (y := y) hM hF hw hlen q2 h).pre ⟨q3, fun p hp => physOk_zero q1 m1 hp⟩ m1
      | some r1 =>
        simp only [pure, Except.pure, Except.ok.injEq, Prod.mk.injEq] at h
        obtain ⟨rfl, rfl⟩ := h
        refine ⟨m1, fun e => by rw [m2] at e; simp at e, ?_, ?_⟩
        · rintro rfl
          obtain ⟨q1, q2, q3⟩ := m3
          exact ⟨q3, fun p hp => physOk_of he (by rw [m2, he]) (by rw [q1]) q2 m1 hp⟩
        · rintro a rfl
          exact m3.2.2

theorem mmapAnon_map {c : Cfg} {w : World} {y : Sys} (hM : FreshMap w) {len : Nat} {st : St} {x : Bool}
    (hx : x = true ∨ y.tramp = true ∨ (y.mprotect = true ∧ y.emutramp = true)) (he : st.execfd = none) (hz : st.execsize = 0) :
    LockRes y c len st (st.mmapAnon w len x).2 (st.mmapAnon w len x).1 ∧ (st.mmapAnon w len x).2.execfd = none := by
  have hk := mmap_keep w len (fun o => ⟨.anon st.clock o, true, x⟩) st
  have hc := mmap_clock w len (fun o => ⟨.anon st.clock o, true, x⟩) st
  have hE := mmap_ext hM len (fun o => ⟨.anon st.clock o, true, x⟩) st
  unfold St.mmapAnon
  rcases hm : st.mmap w len (fun o => ⟨.anon st.clock o, true, x⟩) with ⟨r, st'⟩
  rw [hm] at hk hc hE
  simp only at hk hc hE
  refine ⟨⟨by show st.clock ≤ st'.clock; omega, fun _ => by show st'.execsize = 0; rw [hk.1.execsize, hz], fun _ => ?_, ?_⟩,
    by show st'.execfd = none; rw [hk.1.execfd, he]⟩
  · exact ⟨hE, fun p hp => physOk_zero hz (by show st.clock ≤ st'.clock; omega) hp⟩
  · rintro a ha
    simp only at ha
    subst ha
    obtain ⟨m1, m2, m3, m4, m5⟩ := mmap_some hM hm
    refine ⟨a, fun o => .anon st.clock o, ?_, .inl rfl, hE, ?_, ?_, by simp, ?_, ?_, ?_⟩
    · rintro x (⟨h1, h2⟩ | ⟨h1, h2⟩) <;> exact m1 x h1 h2
    · exact fun o ho => ⟨_, m2 o ho, rfl, rfl, fun h => absurd rfl h, fun _ => hx⟩
    · exact fun o ho => ⟨_, m2 o ho, rfl, fun h => absurd rfl h⟩
    · intro o o' e
      simpa using e
    · intro o ho
      show st.clock < st'.clock
      omega
    · intro p hp
      refine ⟨physOk_zero hz (by show st.clock ≤ st'.clock; omega) hp, ?_⟩
      rintro o rfl
      exact absurd hp (Nat.lt_irrefl _)

theorem dlmmap_map {c : Cfg} {w : World} {y : Sys} (hM : FreshMap w) (hF : FreshFd w) {len : Nat} (hw : 0 < c.word)
    (hlen : c.word ≤ len) {k : Nat} {st st' : St} {r} (hz : st.execfd = none → st.execsize = 0)
    (h : dlmmap c w y k len st = .ok (r, st')) : LockRes y c len st st' r := by
  unfold dlmmap at h
  split at h
  · rename_i e
    obtain ⟨e1, e2⟩ := e
    simp only [Except.ok.injEq] at h
    have := (mmapAnon_map (c := c) (len := len) (x := false) hM (.inr (.inl e2)) e1 (hz e1)).1
    rw [h] at this
    exact this
  · split at h
    · rename_i e
      obtain ⟨e1, e2⟩ := e
      split at h
      · rename_i e3
        simp only [Except.ok.injEq] at h
        have := (mmapAnon_map (c := c) (len := len) (x := false) hM (.inr (.inr ⟨e2, e3⟩)) e1 (hz e1)).1
        rw [h] at this
        exact this
      · exact dlmmapLocked_map hM hF hw hlen hz h
    · split at h
      · rename_i e
        have hx := mmapAnon_map (c := c) (y := y) (len := len) (x := true) hM (.inl rfl) e.1 (hz e.1)
        rcases hm : st.mmapAnon w len true with ⟨r1, st1⟩
        rw [hm] at hx h
        simp only at hx
        cases r1 with
        | some a =>
          simp only [Except.ok.injEq, Prod.mk.injEq] at h
          obtain ⟨rfl, rfl⟩ := h
          exact hx.1
        | none =>
          simp only at h
          split at h
          · exact (dlmmapLocked_map (y := y) hM hF hw hlen hx.1.zero h).pre (hx.1.fail rfl) hx.1.clock
          · simp only [Except.ok.injEq, Prod.mk.injEq] at h
            obtain ⟨rfl, rfl⟩ := h
            exact hx.1
      · exact dlmmapLocked_map hM hF hw hlen hz h

end Verif.Dual
