import Verif.Closures.MachWitness

/-
Properties of the Mach trampoline tables (src/closures.c:161-386) over all histories
(`Reach`, Verif/Spec/Mach.lean).
-/
namespace Verif.Props
open Verif Verif.Mach

/-! ## A platform for the examples -/

/-- Three 16-byte trampolines per page. -/
def mCfg : Cfg := ⟨48, 16⟩

theorem mCfg_ok : CfgOk mCfg := ⟨by decide, by decide, by decide⟩

def mEnv : Mach.Env := ⟨some (7, ⟨0, (0, 0)⟩), some 1000, some true, true, some 3, some 4⟩

def mInit : Mach.G := ⟨Mach.St.init fun _ => none, [], fun _ => none⟩

/-- A history with two live closures. -/
theorem m_history : ∃ g, ReachLe mCfg 2 g ∧ g.live = [(8, 1064), (7, 1048)] ∧
    ∀ t x, g.s.tables t = some x → x.prev = none ∧ x.next = none := by
  have e1 : EnvOk mCfg mInit.s mEnv := by
    refine ⟨?_, ?_, ⟨3, rfl, rfl⟩, ⟨4, rfl, rfl⟩⟩ <;> simp [mInit, Mach.St.init]
  refine ⟨_, .step (.step (.init _) (.alloc e1 rfl) (by decide)) (.alloc (v := { mEnv with closure := some (8, ⟨0, (0, 0)⟩), vmAlloc := none, table := some 5, pool := some 6 })
    ⟨?_, ?_, ⟨5, rfl, rfl⟩, ⟨6, rfl, rfl⟩⟩ rfl) (by decide), rfl, ?_⟩
  rotate_right
  · intro t x h
    by_cases e : t = 3
    · subst e
      obtain rfl := Option.some.inj h
      exact ⟨rfl, rfl⟩
    · simp [upd, e, Mach.St.init, Mach.St.setProt] at h
  · rintro a j e
    simp only [Option.some.injEq, Prod.mk.injEq] at e
    obtain ⟨rfl, rfl⟩ := e
    rfl
  · simp

/-! ## C37 — list integrity -/

/-- C37, exclusivity: in every state of every history the closures handed out are different
blocks, their trampolines do not overlap, and every trampoline lies in a page that is mapped
executable by the library, with its configuration block one page below, mapped writable. -/
theorem C37_exclusive {c : Cfg} (hc : CfgOk c) {g : Mach.G} (h : Reach c g) :
    (g.live.map (·.1)).Nodup ∧
    (∀ p ∈ g.live, ∀ q ∈ g.live, p ≠ q → ∀ o o', o < c.size → o' < c.size → p.2 + o ≠ q.2 + o') ∧
    ∀ p ∈ g.live, c.page ≤ p.2 ∧ ∀ o, o < c.size → g.s.prot (p.2 + o) = some .rx ∧
      g.s.prot (p.2 - c.page + o) = some .rw ∧ g.Own (p.2 + o) ∧ g.Own (p.2 - c.page + o) := by
  obtain ⟨fl, hI⟩ := inv_reach hc h
  have hslot : ∀ i o, i < c.count → o < c.size → i * c.size + o < c.page := by
    intro i o hi ho
    have h1 : (i + 1) * c.size ≤ c.count * c.size := Nat.mul_le_mul_right _ hi
    have h2 : c.count * c.size ≤ c.page := Nat.div_mul_le_self _ _
    rw [Nat.add_mul] at h1
    omega
  refine ⟨hI.keys, ?_, ?_⟩
  · intro p hp q hq hpq o o' ho ho' e
    obtain ⟨t, i, hat, _⟩ := hI.live p hp
    obtain ⟨t', i', hat', _⟩ := hI.live q hq
    obtain ⟨x, hx, _, hi, e1⟩ := id hat
    obtain ⟨x', hx', _, hi', e2⟩ := id hat'
    have b1 := hslot i o hi ho
    have b2 := hslot i' o' hi' ho'
    by_cases ht : t = t'
    · subst ht
      rw [hx] at hx'
      obtain rfl := Option.some.inj hx'
      have hii : i = i' := by
        have e3 : i * c.size + o = i' * c.size + o' := by omega
        have := congrArg (· / c.size) e3
        simpa [Nat.mul_comm _ c.size, Nat.mul_add_div hc.pos, Nat.div_eq_of_lt ho, Nat.div_eq_of_lt ho'] using this
      subst hii
      exact hpq (hI.inj p hp q hq t i hat hat')
    · refine hI.disj t t' x x' hx hx' ht (c.page + (i * c.size + o)) (c.page + (i' * c.size + o')) (by omega) (by omega) ?_
      omega
  · intro p hp
    obtain ⟨t, i, ⟨x, hx, _, hi, e1⟩, _⟩ := hI.live p hp
    have ht := hI.tab t x hx
    refine ⟨by omega, fun o ho => ?_⟩
    have b := hslot i o hi ho
    obtain ⟨a1, a2⟩ := ht.rx (c.page + (i * c.size + o)) (by omega) (by omega)
    obtain ⟨b1, b2⟩ := ht.rw (i * c.size + o) b
    have ee1 : p.2 + o = x.config + (c.page + (i * c.size + o)) := by omega
    have ee2 : p.2 - c.page + o = x.config + (i * c.size + o) := by omega
    rw [ee1, ee2]
    exact ⟨a1, b1, ⟨by rw [a1]; simp, a2⟩, ⟨by rw [b1]; simp, b2⟩⟩

example : ∃ g, Reach mCfg g ∧ g.live = [(8, 1064), (7, 1048)] := by
  obtain ⟨g, h, e, _⟩ := m_history
  exact ⟨g, h.reach, e⟩

/-- C37, allocation: when `calloc` succeeds `ffi_closure_alloc` does not touch a freed block.
It fails only if `malloc` or a vm_* call fails, and then changes nothing; otherwise the
closure and its trampoline are new. -/
theorem C37_alloc {c : Cfg} (hc : CfgOk c) {g : Mach.G} (h : Reach c g) {v : Mach.Env} (he : EnvOk c g.s v) :
    (Mach.alloc c v g.s = .ok (g.s, none) ∧
      (v.closure = none ∨ v.vmAlloc = none ∨ v.vmRemap = none ∨ (v.vmRemap = some false ∧ v.vmProtect = false))) ∨
    ∃ s' p, Mach.alloc c v g.s = .ok (s', some p) ∧ (∀ q ∈ g.live, q.1 ≠ p.1) ∧
      ∀ q ∈ g.live, ∀ o o', o < c.size → o' < c.size → q.2 + o ≠ p.2 + o' := by
  obtain ⟨fl, hI⟩ := inv_reach hc h
  rcases alloc_inv hc hI he with h1 | ⟨s', p, _, _, _, e, _, hn, _⟩
  · exact .inl h1
  · refine .inr ⟨s', p, e, hn, fun q hq => ?_⟩
    exact (C37_exclusive hc (h.step (.alloc he e))).2.1 q (by simp [hq]) p (by simp) (fun e => hn q hq (by rw [e]))

example : EnvOk mCfg mInit.s mEnv ∧ ∃ s', Mach.alloc mCfg mEnv mInit.s = .ok (s', some (7, 1048)) :=
  ⟨by refine ⟨?_, ?_, ⟨3, rfl, rfl⟩, ⟨4, rfl, rfl⟩⟩ <;> simp [mInit, Mach.St.init], _, rfl⟩

/-- C37: the results of `calloc` are used without a check (src/closures.c:250-254): whenever
a table is needed and `calloc` returns NULL the process faults. -/
theorem C37_calloc (c : Cfg) (prot : Nat → Option Prot) (v : Mach.Env) (hv : v.closure ≠ none) (hm : v.vmAlloc ≠ none)
    (hr : v.vmRemap = some true) (ht : v.table = none ∨ v.pool = none) :
    Mach.alloc c v (Mach.St.init prot) = .error .fault := by
  obtain ⟨⟨cl, j⟩, hcl⟩ := Option.ne_none_iff_exists'.1 hv
  obtain ⟨m, hm⟩ := Option.ne_none_iff_exists'.1 hm
  unfold Mach.alloc tableAlloc
  simp only [hcl, needTable, Mach.St.init, hm, hr, bind, Except.bind]
  cases h : v.table with
  | none => simp
  | some t =>
    have : v.pool = none := by simpa [h] using ht
    simp [this]

example : Mach.alloc mCfg { mEnv with pool := none } (Mach.St.init fun _ => none) = .error .fault :=
  C37_calloc _ _ _ (by simp [mEnv]) (by simp [mEnv]) rfl (.inr rfl)

/-- C37, freeing, as far as it holds: `ffi_closure_free` of a live closure does not touch a
freed block provided no table links to a freed one.  Missing: that proviso, which does not
hold in every history (`C37_use_after_free`). -/
theorem C37_free_partial {c : Cfg} (hc : CfgOk c) {g : Mach.G} (h : Reach c g) {p : Nat × Nat} (hp : p ∈ g.live)
    (hl : ∀ t x, g.s.tables t = some x → (∀ q, x.prev = some q → g.s.tables q ≠ none) ∧
      (∀ q, x.next = some q → g.s.tables q ≠ none)) :
    ∃ s', Mach.free c p.1 g.s = .ok s' := by
  obtain ⟨fl, hI⟩ := inv_reach hc h
  obtain ⟨t, i, hat, hni⟩ := hI.live p hp
  by_cases hh : g.s.head = some t
  · obtain ⟨s1, e1, _⟩ := free_head hc hI hp hat hh
    exact ⟨s1, e1⟩
  · by_cases hlen : (fl t).length + 1 = c.count
    · obtain ⟨s1, e1, _⟩ := free_release hc hI hp hat hh hlen (by
        rintro ⟨x, hx, ⟨q, e, hq⟩ | ⟨q, e, hq⟩⟩
        · exact (hl t x hx).1 q e hq
        · exact (hl t x hx).2 q e hq)
      exact ⟨s1, e1⟩
    · obtain ⟨s1, e1, _⟩ := free_bump hc hI hp hat hh hlen
      exact ⟨s1, e1⟩

example : ∃ g, Reach mCfg g ∧ ∃ s', Mach.free mCfg 8 g.s = .ok s' := by
  obtain ⟨g, h, e, hl⟩ := m_history
  exact ⟨g, h.reach, C37_free_partial mCfg_ok h.reach (p := (8, 1064)) (by simp [e])
    fun t x hx => ⟨by simp [(hl t x hx).1], by simp [(hl t x hx).2]⟩⟩

/-- C37, the part without a proviso: a process that never holds more closures than fit into
one table never touches a freed block when it frees one. -/
theorem C37_one_table {c : Cfg} (hc : CfgOk c) {g : Mach.G} (h : ReachLe c c.count g) {p : Nat × Nat} (hp : p ∈ g.live) :
    ∃ s', Mach.free c p.1 g.s = .ok s' := by
  obtain ⟨fl, hI⟩ := inv_reach hc h.reach
  obtain ⟨t, i, hat, _⟩ := hI.live p hp
  have hx : ∃ x, g.s.tables t = some x := ⟨_, hat.choose_spec.1⟩
  obtain ⟨x, hx⟩ := hx
  obtain ⟨s', e, _⟩ := free_head hc hI hp hat (single_reach hc h t (by rw [hx]; simp))
  exact ⟨s', e⟩

theorem ReachLe_mono {c : Cfg} {n m : Nat} (hnm : n ≤ m) {g : Mach.G} (h : ReachLe c n g) : ReachLe c m g := by
  induction h with
  | init prot => exact .init prot
  | step _ hs hl ih => exact ih.step hs (hl.trans hnm)

example : ∃ g, ReachLe mCfg mCfg.count g ∧ ∃ s', Mach.free mCfg 7 g.s = .ok s' := by
  obtain ⟨g, h, e, _⟩ := m_history
  have h := ReachLe_mono (m := mCfg.count) (by decide) h
  exact ⟨g, h, C37_one_table mCfg_ok h (p := (7, 1048)) (by simp [e])⟩

/-- C37 is false: `ffi_closure_free` does not unlink a table that it moves to the front, so
with three tables there is a history after which freeing a live closure writes to a freed
table.  This holds for every page size with at least two trampolines per page. -/
theorem C37_use_after_free {c : Cfg} (hc : CfgOk c) (h2 : 2 ≤ c.count) :
    ∃ g, Reach c g ∧ ∃ p ∈ g.live, Mach.free c p.1 g.s = .error .fault := use_after_free hc h2

/-- macOS on ARM: 16 KiB pages, 16-byte trampolines. -/
example : CfgOk ⟨16384, 16⟩ ∧ 2 ≤ (Cfg.count ⟨16384, 16⟩) := ⟨⟨by decide, by decide, by decide⟩, by decide⟩

/-! ## C49 — memory held when nothing is live -/

/-- C49, as far as it holds: a process that never holds more closures than fit into one table
never has more than one table.  Missing: processes that hold more (`C49_leak`). -/
theorem C49_one_table_partial {c : Cfg} (hc : CfgOk c) {g : Mach.G} (h : ReachLe c c.count g) {t t' : Nat}
    (ht : g.s.tables t ≠ none) (ht' : g.s.tables t' ≠ none) : t = t' := by
  have h1 := single_reach hc h t ht
  rw [single_reach hc h t' ht'] at h1
  exact (Option.some.inj h1).symm

/-- C49 is false: there are histories after which no closure is live and any number of tables
is still allocated. -/
theorem C49_leak {c : Cfg} (hc : CfgOk c) (h2 : 2 ≤ c.count) (k : Nat) :
    ∃ g, Reach c g ∧ g.live = [] ∧ ∃ l : List Nat, l.length = k ∧ l.Nodup ∧ ∀ t ∈ l, g.s.tables t ≠ none := by
  obtain ⟨g, A, L, n, l, w, hl, hnd, hex, hn⟩ := leak hc h2 k
  refine ⟨g, w.1, w.live_nil hn, l, hl, (List.nodup_cons.1 hnd).2, fun t ht => w.tab (hex t (by simp [ht]))⟩

example : ∃ g, Reach mCfg g ∧ g.live = [] ∧ ∃ l : List Nat, l.length = 5 ∧ l.Nodup ∧ ∀ t ∈ l, g.s.tables t ≠ none :=
  C49_leak mCfg_ok (by decide) 5

end Verif.Props
