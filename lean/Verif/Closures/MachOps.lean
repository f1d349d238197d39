import Verif.Closures.MachInv
import Mathlib.Data.List.Nodup
import Mathlib.Data.List.Perm.Subperm

/-
The operations on Mach trampoline tables preserve the invariant.
-/
namespace Verif.Mach
open Verif

theorem length_le_of_lt {l : List Nat} {n : Nat} (hn : l.Nodup) (h : ∀ i ∈ l, i < n) : l.length ≤ n := by
  have := (List.subperm_of_subset hn (fun i hi => List.mem_range.2 (h i hi))).length_le
  simpa using this

theorem mem_of_full {l : List Nat} {n : Nat} (hn : l.Nodup) (h : ∀ i ∈ l, i < n) (hl : l.length = n) {i : Nat}
    (hi : i < n) : i ∈ l := by
  by_contra hc
  have := length_le_of_lt (l := i :: l) (n := n) (List.nodup_cons.2 ⟨hc, hn⟩)
    (by intro j hj; rcases List.mem_cons.1 hj with rfl | hj; exacts [hi, h j hj])
  simp at this
  omega

/-! ## A new table -/

theorem fillPool_eq (c : Cfg) (p page : Nat) : ∀ (k i : Nat) (s : St) (a : Nat → Entry), i + k = c.count →
    s.pools p = some a → ∃ a', fillPool c p page k i s = .ok { s with pools := upd s.pools p (some a') } ∧
      (∀ j, j < i → a' j = a j) ∧
      (∀ j, i ≤ j → j < c.count → a' j = ⟨page + j * c.size, if j + 1 < c.count then some (p, j + 1) else (a j).next⟩)
  | 0, i, s, a, hk, hp => by
    refine ⟨a, ?_, fun _ _ => rfl, fun j h1 h2 => by omega⟩
    have : upd s.pools p (some a) = s.pools := by
      funext x; by_cases e : x = p
      · subst e; simp [hp]
      · simp [upd_ne _ _ e]
    simp [fillPool, this]
  | k + 1, i, s, a, hk, hp => by
    have hi : i < c.count := by omega
    by_cases hlt : i + 1 < c.count
    · let a1 := upd a i ⟨page + i * c.size, some (p, i + 1)⟩
      obtain ⟨a', h1, h2, h3⟩ := fillPool_eq c p page k (i + 1) { s with pools := upd s.pools p (some a1) } a1
        (by omega) (by simp)
      refine ⟨a', ?_, fun j hj => ?_, fun j hj hj' => ?_⟩
      · simp only [fillPool]
        simp only [St.setE, hp, hi, if_true, hlt, bind, Except.bind, upd_same, upd_upd]
        simp only [upd_upd] at h1
        exact h1
      · rw [h2 j (by omega)]; exact upd_ne _ _ (by omega)
      · by_cases e : j = i
        · subst e
          rw [h2 j (by omega), if_pos hlt]
          simp [a1]
        · rw [h3 j (by omega) hj']
          have : a1 j = a j := upd_ne _ _ e
          rw [this]
    · let a1 := upd a i ⟨page + i * c.size, (a i).next⟩
      obtain ⟨a', h1, h2, h3⟩ := fillPool_eq c p page k (i + 1) { s with pools := upd s.pools p (some a1) } a1
        (by omega) (by simp)
      refine ⟨a', ?_, fun j hj => ?_, fun j hj hj' => ?_⟩
      · simp only [fillPool]
        simp only [St.setE, hp, hi, if_true, hlt, if_false, bind, Except.bind, pure, Except.pure]
        simp only [upd_upd] at h1
        exact h1
      · rw [h2 j (by omega)]; exact upd_ne _ _ (by omega)
      · by_cases e : j = i
        · subst e
          rw [h2 j (by omega), if_neg hlt]
          simp [a1]
        · omega

theorem FL.range {a : Nat → Entry} {p n : Nat} (ha : ∀ j, j < n → (a j).next = if j + 1 < n then some (p, j + 1) else none) :
    ∀ (k i : Nat), i + k = n → FL a p (if i < n then some (p, i) else none) (List.range' i k)
  | 0, i, h => by simp [FL]; omega
  | k + 1, i, h => by
    refine ⟨by rw [if_pos (by omega)], ?_⟩
    rw [ha i (by omega)]
    exact FL.range ha k (i + 1) (by omega)

theorem setProt_undo {s : St} {a n : Nat} {p : Option Prot} (h : ∀ o, o < n → s.prot (a + o) = none) :
    (s.setProt a n p).setProt a n none = s := by
  simp only [St.setProt]
  have : (fun x => if a ≤ x ∧ x < a + n then none else if a ≤ x ∧ x < a + n then p else s.prot x) = s.prot := by
    funext x
    split
    · rename_i hx
      have := h (x - a) (by omega)
      rw [show a + (x - a) = x by omega] at this
      exact this.symm
    · rfl
  rw [this]

/-- A call of the virtual memory system fails. -/
def VmFails (v : Env) : Prop :=
  v.vmAlloc = none ∨ v.vmRemap = none ∨ (v.vmRemap = some false ∧ v.vmProtect = false)

theorem tableAlloc_inv {c : Cfg} (hc : CfgOk c) {g : G} {fl} (h : Inv c g fl) {v : Env} (he : EnvOk c g.s v) :
    (tableAlloc c v g.s = .ok (g.s, none) ∧ VmFails v) ∨
    ∃ t s' x, tableAlloc c v g.s = .ok (s', some t) ∧ g.s.tables t = none ∧ s'.head = g.s.head ∧
      s'.closures = g.s.closures ∧ s'.tables = upd g.s.tables t (some x) ∧ x.prev = none ∧ x.next = none ∧
      Inv c { g with s := s' } (upd fl t (List.range c.count)) := by
  obtain ⟨t, ht, ht0⟩ := he.table
  obtain ⟨p, hp, hp0⟩ := he.pool
  have hcnt : 0 < c.count := Nat.div_pos hc.fits hc.pos
  unfold tableAlloc
  cases hv : v.vmAlloc with
  | none => exact .inl ⟨rfl, .inl hv⟩
  | some m =>
    have hm := he.map m hv
    cases hr : v.vmRemap with
    | none =>
      left
      refine ⟨?_, .inr (.inl hr)⟩
      simp only [pure, Except.pure, setProt_undo hm]
    | some ex =>
      by_cases hx : ex = false ∧ v.vmProtect = false
      · left
        refine ⟨?_, .inr (.inr ⟨by rw [hr, hx.1], hx.2⟩)⟩
        simp only [pure, Except.pure, setProt_undo hm, hx, and_self, if_true]
      · right
        simp only [hx, if_false, ht, hp]
        -- the state before the pool is filled
        generalize hs1 : (({ ({ ((g.s.setProt m (2 * c.page) (some .rw)).setProt (m + c.page) c.page (some .rx)) with
          tables := upd ((g.s.setProt m (2 * c.page) (some .rw)).setProt (m + c.page) c.page (some .rx)).tables t
            (some ⟨m, c.count, none, p, none, none⟩) } : St) with
          pools := upd g.s.pools p (some fun _ => ⟨0, none⟩) } : St)) = s1
        have hpool1 : s1.pools p = some fun _ => ⟨0, none⟩ := by rw [← hs1]; simp
        obtain ⟨a, f1, f2, f3⟩ := fillPool_eq c p (m + c.page) c.count 0 s1 _ (by omega) hpool1
        have htab1 : s1.tables = upd g.s.tables t (some ⟨m, c.count, none, p, none, none⟩) := by rw [← hs1]; rfl
        have hprot1 : ∀ b, s1.prot b = if m + c.page ≤ b ∧ b < m + 2 * c.page then some .rx
            else if m ≤ b ∧ b < m + 2 * c.page then some .rw else g.s.prot b := by
          intro b
          rw [← hs1]
          simp only [St.setProt]
          have : m + c.page + c.page = m + 2 * c.page := by omega
          rw [this]
        have hcl1 : s1.closures = g.s.closures := by rw [← hs1]; rfl
        have hhd1 : s1.head = g.s.head := by rw [← hs1]; rfl
        refine ⟨t, { s1 with pools := upd s1.pools p (some a)
                             tables := upd g.s.tables t (some ⟨m, c.count, some (p, 0), p, none, none⟩) },
          ⟨m, c.count, some (p, 0), p, none, none⟩, ?_, ht0, hhd1, hcl1, rfl, rfl, rfl, ?_⟩
        · simp only [St.setT, upd_same, bind, Except.bind, pure, Except.pure, upd_upd]
          have e1 : ({ ((g.s.setProt m (2 * c.page) (some .rw)).setProt (m + c.page) c.page (some .rx)) with
              tables := upd ((g.s.setProt m (2 * c.page) (some .rw)).setProt (m + c.page) c.page (some .rx)).tables t
                (some ⟨m, c.count, none, p, none, none⟩)
              pools := upd ((g.s.setProt m (2 * c.page) (some .rw)).setProt (m + c.page) c.page (some .rx)).pools p
                (some fun _ => ⟨0, none⟩) } : St) = s1 := hs1
          simp only [e1, f1, htab1, upd_same, upd_upd]
        · -- facts about the mappings
          have hfree : ∀ b, m ≤ b → b < m + 2 * c.page → g.s.prot b = none ∧ g.other b = none := by
            intro b h1 h2
            have h3 := hm (b - m) (by omega)
            rw [show m + (b - m) = b by omega] at h3
            refine ⟨h3, ?_⟩
            by_contra hc'
            rw [← h.mapped b hc'] at hc'
            exact hc' h3
          have hold : ∀ b, g.s.prot b ≠ none → s1.prot b = g.s.prot b := by
            intro b hb
            rw [hprot1]
            have : ¬ (m ≤ b ∧ b < m + 2 * c.page) := fun hh => hb (hfree b hh.1 hh.2).1
            rw [if_neg (by omega), if_neg (by omega)]
          have hpe : ∀ t' x, g.s.tables t' = some x → x.pool ≠ p := by
            intro t' x hx' e
            obtain ⟨b, hb, _⟩ := (h.tab t' x hx').pool
            rw [e, hp0] at hb
            simp at hb
          have hpool' : ∀ q, q ≠ p → upd s1.pools p (some a) q = g.s.pools q := by
            intro q hq
            rw [upd_ne _ _ hq, ← hs1]
            exact upd_ne _ _ hq
          have hat : ∀ q t' i, At c { g with s := { s1 with pools := upd s1.pools p (some a), tables := upd g.s.tables t (some ⟨m, c.count, some (p, 0), p, none, none⟩) } } q t' i →
              t' ≠ t → At c g q t' i := by
            rintro q t' i ⟨x, h1, h2, h3, h4⟩ hne
            have h1' : g.s.tables t' = some x := by rw [← h1]; exact (upd_ne _ _ hne).symm
            exact ⟨x, h1', by rw [← h2]; show _ = s1.closures _; rw [hcl1], h3, h4⟩
          have hat' : ∀ q t' i, At c g q t' i → t' ≠ t ∧
              At c { g with s := { s1 with pools := upd s1.pools p (some a), tables := upd g.s.tables t (some ⟨m, c.count, some (p, 0), p, none, none⟩) } } q t' i := by
            rintro q t' i ⟨x, h1, h2, h3, h4⟩
            have hne : t' ≠ t := by rintro rfl; rw [ht0] at h1; simp at h1
            exact ⟨hne, x, by rw [← h1]; exact upd_ne _ _ hne, by rw [← h2]; show s1.closures _ = _; rw [hcl1], h3, h4⟩
          refine ⟨?_, ?_, ?_, ?_, ?_, h.keys, ?_, ?_, ?_⟩
          · intro hd hhd
            have := h.head hd (by rw [← hhd1]; exact hhd)
            by_cases e : hd = t
            · subst e; simp
            · show upd _ _ _ _ ≠ none
              rw [upd_ne _ _ e]; exact this
          · intro t' x hx'
            by_cases e : t' = t
            · subst e
              have : x = ⟨m, c.count, some (p, 0), p, none, none⟩ := by
                simpa using hx'.symm
              subst this
              refine ⟨⟨a, by simp, ?_, ?_⟩, ?_, ?_, ?_, ?_, ?_⟩
              · rw [upd_same, List.range_eq_range']
                have := FL.range (a := a) (p := p) (n := c.count) (fun j hj => by
                  rw [f3 j (by omega) hj]) c.count 0 (by omega)
                rw [if_pos hcnt] at this
                exact this
              · intro i hi
                rw [f3 i (by omega) hi]
              · rw [upd_same]; exact List.nodup_range
              · rw [upd_same]; intro i hi; exact List.mem_range.1 hi
              · rw [upd_same]; simp
              · intro o ho
                show s1.prot _ = _ ∧ _
                rw [hprot1, if_neg (by simp only; omega), if_pos (by simp only; omega)]
                exact ⟨rfl, (hfree _ (by simp only; omega) (by simp only; omega)).2⟩
              · intro o ho ho'
                show s1.prot _ = _ ∧ _
                rw [hprot1, if_pos (by simp only; omega)]
                exact ⟨rfl, (hfree _ (by simp only; omega) (by simp only; omega)).2⟩
            · have hx : g.s.tables t' = some x := by rw [← hx']; exact (upd_ne _ _ e).symm
              rw [upd_ne _ _ e]
              obtain ⟨q, k1, k2, k3, k4, k5⟩ := h.tab t' x hx
              refine ⟨?_, k1, k2, k3, ?_, ?_⟩
              · show ∃ a', upd s1.pools p (some a) x.pool = some a' ∧ _
                rw [hpool' _ (hpe t' x hx)]
                exact q
              · intro o ho
                show s1.prot _ = _ ∧ _
                rw [hold _ (by rw [(k4 o ho).1]; simp)]
                exact k4 o ho
              · intro o ho ho'
                show s1.prot _ = _ ∧ _
                rw [hold _ (by rw [(k5 o ho ho').1]; simp)]
                exact k5 o ho ho'
          · intro t1 t2 x1 x2 hx1 hx2 hpp
            by_cases e1 : t1 = t <;> by_cases e2 : t2 = t
            · rw [e1, e2]
            · subst e1
              have h2 : g.s.tables t2 = some x2 := by rw [← hx2]; exact (upd_ne _ _ e2).symm
              have h1 : x1 = ⟨m, c.count, some (p, 0), p, none, none⟩ := by simpa using hx1.symm
              exact absurd hpp.symm (by rw [h1]; exact hpe t2 x2 h2)
            · subst e2
              have h1 : g.s.tables t1 = some x1 := by rw [← hx1]; exact (upd_ne _ _ e1).symm
              have h2 : x2 = ⟨m, c.count, some (p, 0), p, none, none⟩ := by simpa using hx2.symm
              exact absurd hpp (by rw [h2]; exact hpe t1 x1 h1)
            · exact h.pools t1 t2 x1 x2 (by rw [← hx1]; exact (upd_ne _ _ e1).symm)
                (by rw [← hx2]; exact (upd_ne _ _ e2).symm) hpp
          · have key : ∀ t' x', g.s.tables t' = some x' → ∀ o o', o < 2 * c.page → o' < 2 * c.page →
                m + o ≠ x'.config + o' := by
              intro t' x' hx' o o' ho ho' e
              have h1 := (hfree (m + o) (by omega) (by omega)).1
              rw [e] at h1
              by_cases hlt : o' < c.page
              · rw [((h.tab t' x' hx').rw o' hlt).1] at h1; simp at h1
              · rw [((h.tab t' x' hx').rx o' (by omega) ho').1] at h1; simp at h1
            intro t1 t2 x1 x2 hx1 hx2 hne o o' ho ho'
            by_cases e1 : t1 = t <;> by_cases e2 : t2 = t
            · exact absurd (e1.trans e2.symm) hne
            · subst e1
              have h2 : g.s.tables t2 = some x2 := by rw [← hx2]; exact (upd_ne _ _ e2).symm
              have h1 : x1 = ⟨m, c.count, some (p, 0), p, none, none⟩ := by simpa using hx1.symm
              rw [h1]; exact key t2 x2 h2 o o' ho ho'
            · subst e2
              have h1 : g.s.tables t1 = some x1 := by rw [← hx1]; exact (upd_ne _ _ e1).symm
              have h2 : x2 = ⟨m, c.count, some (p, 0), p, none, none⟩ := by simpa using hx2.symm
              rw [h2]; exact (key t1 x1 h1 o' o ho' ho).symm
            · exact h.disj t1 t2 x1 x2 (by rw [← hx1]; exact (upd_ne _ _ e1).symm)
                (by rw [← hx2]; exact (upd_ne _ _ e2).symm) hne o o' ho ho'
          · intro q hq
            obtain ⟨t', i, k1, k2⟩ := h.live q hq
            obtain ⟨hne, k3⟩ := hat' q t' i k1
            exact ⟨t', i, k3, by rw [upd_ne _ _ hne]; exact k2⟩
          · intro q hq r hr t' i k1 k2
            by_cases e : t' = t
            · subst e
              obtain ⟨t1, i1, k3, k4⟩ := h.live q hq
              obtain ⟨x, _, h2, _⟩ := k1
              obtain ⟨x', h1', h2', _⟩ := k3
              have h2 : g.s.closures q.1 = some ⟨t', (x.pool, i)⟩ := by rw [← hcl1]; exact h2
              rw [h2'] at h2
              simp only [Option.some.injEq, Closure.mk.injEq] at h2
              rw [h2.1, ht0] at h1'
              simp at h1'
            · exact h.inj q hq r hr t' i (hat q t' i k1 e) (hat r t' i k2 e)
          · intro t' i hh hi hni
            by_cases e : t' = t
            · subst e
              rw [upd_same] at hni
              exact absurd (List.mem_range.2 hi) hni
            · rw [upd_ne _ _ e] at hni
              obtain ⟨q, hq, k⟩ := h.used t' i (by rw [← show upd g.s.tables t (some _) t' = g.s.tables t' from upd_ne _ _ e]; exact hh) hi hni
              exact ⟨q, hq, (hat' q t' i k).2⟩
          · intro b hb
            show s1.prot b = _
            rw [← h.mapped b hb]
            exact hold b (by rw [h.mapped b hb]; exact hb)


/-! ## Claiming an entry -/

/-- A closure block that is not in use. -/
theorem Inv.junk {c : Cfg} {g : G} {fl} (h : Inv c g fl) {cl : Nat} {j : Option Closure}
    (hcl : ∀ p ∈ g.live, p.1 ≠ cl) :
    Inv c { g with s := { g.s with closures := upd g.s.closures cl j } } fl := by
  have hat : ∀ p ∈ g.live, ∀ t i,
      (At c { g with s := { g.s with closures := upd g.s.closures cl j } } p t i ↔ At c g p t i) := by
    intro p hp t i
    have : upd g.s.closures cl j p.1 = g.s.closures p.1 := upd_ne _ _ (hcl p hp)
    simp only [At, this]
  exact ⟨h.head, fun t x hx => ⟨(h.tab t x hx).pool, (h.tab t x hx).nodup, (h.tab t x hx).lt, (h.tab t x hx).cnt,
      (h.tab t x hx).rw, (h.tab t x hx).rx⟩, h.pools, h.disj,
    fun p hp => let ⟨t, i, a, b⟩ := h.live p hp; ⟨t, i, (hat p hp t i).2 a, b⟩, h.keys,
    fun p hp q hq t i a b => h.inj p hp q hq t i ((hat p hp t i).1 a) ((hat q hq t i).1 b),
    fun t i a b d => let ⟨p, hp, k⟩ := h.used t i a b d; ⟨p, hp, (hat p hp t i).2 k⟩, h.mapped⟩

theorem claim_inv {c : Cfg} (hc : CfgOk c) {g : G} {fl} (h : Inv c g fl) {cl hd i : Nat} {l : List Nat}
    (hh : g.s.head = some hd) (hl : fl hd = i :: l) (hcl : ∀ p ∈ g.live, p.1 ≠ cl) :
    ∃ s' x code, g.s.tables hd = some x ∧ code = x.config + c.page + i * c.size ∧
      claim c cl hd g.s = .ok (s', some (cl, code)) ∧ s'.head = g.s.head ∧
      (∃ x', x'.prev = x.prev ∧ x'.next = x.next ∧ s'.tables = upd g.s.tables hd (some x')) ∧
      s'.closures = upd g.s.closures cl (some ⟨hd, (x.pool, i)⟩) ∧
      Inv c { g with s := s', live := (cl, code) :: g.live } (upd fl hd l) := by
  obtain ⟨x, hx⟩ := Option.ne_none_iff_exists'.1 (h.head hd hh)
  have ht := h.tab hd x hx
  rw [hl] at ht
  obtain ⟨⟨a, ha, hfl, htr⟩, hnd, hlt, hcnt, hrw, hrx⟩ := ht
  obtain ⟨hf1, hf2⟩ := hfl
  have hi : i < c.count := hlt i (by simp)
  have hlen := length_le_of_lt hnd hlt
  have hcc := hc.count
  have hni : i ∉ l := (List.nodup_cons.1 hnd).1
  have hcnt' : (x.freeCount + (2 ^ 16 - 1)) % 2 ^ 16 = l.length := by
    rw [hcnt, List.length_cons]
    simp only [List.length_cons] at hlen
    omega
  refine ⟨{ g.s with tables := upd g.s.tables hd (some { x with freeList := (a i).next, freeCount := l.length })
                     pools := upd g.s.pools x.pool (some (upd a i { a i with next := none }))
                     closures := upd g.s.closures cl (some ⟨hd, (x.pool, i)⟩) }, x, _, hx, rfl, ?_, rfl,
    ⟨{ x with freeList := (a i).next, freeCount := l.length }, rfl, rfl, rfl⟩, rfl, ?_⟩
  · unfold claim
    simp only [hh, St.getT, hx, hf1, bind, Except.bind, St.getE, ha, hi, if_true, St.setT, upd_same, St.setE,
      hcnt', upd_upd, pure, Except.pure, htr i hi]
  · have htab : ∀ t y, upd g.s.tables hd (some { x with freeList := (a i).next, freeCount := l.length }) t = some y →
        ∃ y', g.s.tables t = some y' ∧ y'.pool = y.pool ∧ y'.config = y.config := by
      intro t y hy
      by_cases e : t = hd
      · subst e
        simp only [upd_same, Option.some.injEq] at hy
        exact ⟨x, hx, by rw [← hy], by rw [← hy]⟩
      · rw [upd_ne _ _ e] at hy
        exact ⟨y, hy, rfl, rfl⟩
    have hat : ∀ p : Nat × Nat, p.1 ≠ cl → ∀ t k, (At c { g with
          s := { g.s with tables := upd g.s.tables hd (some { x with freeList := (a i).next, freeCount := l.length })
                          pools := upd g.s.pools x.pool (some (upd a i { a i with next := none }))
                          closures := upd g.s.closures cl (some ⟨hd, (x.pool, i)⟩) }
          live := (cl, x.config + c.page + i * c.size) :: g.live } p t k ↔ At c g p t k) := by
      intro p hp t k
      have hcl' : upd g.s.closures cl (some ⟨hd, (x.pool, i)⟩) p.1 = g.s.closures p.1 := upd_ne _ _ hp
      constructor
      · rintro ⟨y, h1, h2, h3, h4⟩
        obtain ⟨y', k1, k2, k3⟩ := htab t y h1
        exact ⟨y', k1, by rw [k2, ← h2]; exact hcl'.symm, h3, by rw [k3]; exact h4⟩
      · rintro ⟨y, h1, h2, h3, h4⟩
        by_cases e : t = hd
        · subst e
          rw [hx] at h1
          obtain rfl := Option.some.inj h1
          exact ⟨_, upd_same _ _ _, by rw [← hcl'] at h2; exact h2, h3, h4⟩
        · exact ⟨y, by rw [← h1]; exact upd_ne _ _ e, by rw [← hcl'] at h2; exact h2, h3, h4⟩
    have hatn : ∀ t k code, At c { g with
          s := { g.s with tables := upd g.s.tables hd (some { x with freeList := (a i).next, freeCount := l.length })
                          pools := upd g.s.pools x.pool (some (upd a i { a i with next := none }))
                          closures := upd g.s.closures cl (some ⟨hd, (x.pool, i)⟩) }
          live := (cl, x.config + c.page + i * c.size) :: g.live } (cl, code) t k → t = hd ∧ k = i := by
      rintro t k code ⟨y, h1, h2, h3, h4⟩
      simp only [upd_same, Option.some.injEq, Closure.mk.injEq, Prod.mk.injEq] at h2
      exact ⟨h2.1.symm, h2.2.2.symm⟩
    refine ⟨?_, ?_, ?_, ?_, ?_, ?_, ?_, ?_, h.mapped⟩
    · intro t ht
      have := h.head t ht
      by_cases e : t = hd
      · subst e; simp
      · show upd _ _ _ _ ≠ none; rw [upd_ne _ _ e]; exact this
    · intro t y hy
      by_cases e : t = hd
      · subst e
        rw [upd_same]
        simp only [upd_same, Option.some.injEq] at hy
        subst hy
        refine ⟨⟨_, upd_same _ _ _, ?_, ?_⟩, (List.nodup_cons.1 hnd).2, fun j hj => hlt j (by simp [hj]), rfl, hrw, hrx⟩
        · refine hf2.congr fun j hj => ?_
          rw [upd_ne _ _ (show j ≠ i from fun e => hni (e ▸ hj))]
        · intro j hj
          by_cases e : j = i
          · subst e; rw [upd_same]; exact htr j hj
          · rw [upd_ne _ _ e]; exact htr j hj
      · rw [upd_ne _ _ e]
        have hy' : g.s.tables t = some y := by rw [← hy]; exact (upd_ne _ _ e).symm
        obtain ⟨⟨b, hb, hb'⟩, k1, k2, k3, k4, k5⟩ := h.tab t y hy'
        refine ⟨⟨b, ?_, hb'⟩, k1, k2, k3, k4, k5⟩
        rw [← hb]
        exact upd_ne _ _ fun e' => e (h.pools t hd y x hy' hx e')
    · intro t t' y y' hy hy' hp
      obtain ⟨z, k1, k2, _⟩ := htab t y hy
      obtain ⟨z', k1', k2', _⟩ := htab t' y' hy'
      exact h.pools t t' z z' k1 k1' (by rw [k2, k2', hp])
    · intro t t' y y' hy hy' hne
      obtain ⟨z, k1, _, k2⟩ := htab t y hy
      obtain ⟨z', k1', _, k2'⟩ := htab t' y' hy'
      rw [← k2, ← k2']
      exact h.disj t t' z z' k1 k1' hne
    · intro p hp
      rcases List.mem_cons.1 hp with rfl | hp
      · exact ⟨hd, i, ⟨_, upd_same _ _ _, upd_same _ _ _, hi, rfl⟩, by rw [upd_same]; exact hni⟩
      · obtain ⟨t, k, k1, k2⟩ := h.live p hp
        refine ⟨t, k, (hat p (hcl p hp) t k).2 k1, ?_⟩
        by_cases e : t = hd
        · subst e; rw [upd_same]; rw [hl] at k2; exact fun hc => k2 (by simp [hc])
        · rw [upd_ne _ _ e]; exact k2
    · rw [List.map_cons, List.nodup_cons]
      refine ⟨?_, h.keys⟩
      intro hm
      obtain ⟨p, hp, e⟩ := List.mem_map.1 hm
      exact hcl p hp e
    · have hold : ∀ p ∈ g.live, ¬ At c g p hd i := by
        intro p hp k
        obtain ⟨t', i', k1, k2⟩ := h.live p hp
        obtain ⟨y, a1, a2, a3, a4⟩ := k
        obtain ⟨z, b1, b2, b3, b4⟩ := k1
        rw [a2] at b2
        simp only [Option.some.injEq, Closure.mk.injEq, Prod.mk.injEq] at b2
        obtain ⟨rfl, -, rfl⟩ := b2
        rw [hl] at k2
        simp at k2
      intro p hp q hq t k k1 k2
      rcases List.mem_cons.1 hp with rfl | hp' <;> rcases List.mem_cons.1 hq with rfl | hq'
      · rfl
      · obtain ⟨rfl, rfl⟩ := hatn t k _ k1
        exact absurd ((hat q (hcl q hq') _ _).1 k2) (hold q hq')
      · obtain ⟨rfl, rfl⟩ := hatn t k _ k2
        exact absurd ((hat p (hcl p hp') _ _).1 k1) (hold p hp')
      · exact h.inj p hp' q hq' t k ((hat p (hcl p hp') t k).1 k1) ((hat q (hcl q hq') t k).1 k2)
    · intro t k hne hk hnk
      by_cases e : t = hd ∧ k = i
      · obtain ⟨rfl, rfl⟩ := e
        exact ⟨_, List.mem_cons_self, _, upd_same _ _ _, upd_same _ _ _, hk, rfl⟩
      · have hne' : g.s.tables t ≠ none := by
          by_cases e' : t = hd
          · subst e'; rw [hx]; simp
          · rw [← show upd g.s.tables hd _ t = g.s.tables t from upd_ne _ (some { x with freeList := (a i).next, freeCount := l.length }) e']; exact hne
        have hnk' : k ∉ fl t := by
          by_cases e' : t = hd
          · subst e'; rw [upd_same] at hnk; rw [hl]
            intro hc'
            rcases List.mem_cons.1 hc' with h1 | h1
            · exact e ⟨rfl, h1⟩
            · exact hnk h1
          · rw [upd_ne _ _ e'] at hnk; exact hnk
        obtain ⟨p, hp, k1⟩ := h.used t k hne' hk hnk'
        exact ⟨p, List.mem_cons_of_mem _ hp, (hat p (hcl p hp) t k).2 k1⟩

end Verif.Mach
