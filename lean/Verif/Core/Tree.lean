import Verif.Core.FuelLemmas
import Verif.Spec.TypeLemmas

/-
Type trees and the descriptor heap: what the machine-dependent files see of a type
after `ffi_prep_cif_core` (src/prep_cif.c:110-216) has laid it out.
-/
namespace Verif
open Spec

/-! ## Unfolding descriptors -/

mutual
/-- The descriptor at an address, followed through its elements, is the tree. -/
inductive Unfolds (h : Heap) : Addr → FType → Prop
  | mk {a d ts} : h a = some d → UnfoldsL h (d.elements.getD []) ts →
      Unfolds h a (.mk d.size d.align d.tc ts)
inductive UnfoldsL (h : Heap) : List Addr → List FType → Prop
  | nil : UnfoldsL h [] []
  | cons {a as t ts} : Unfolds h a t → UnfoldsL h as ts → UnfoldsL h (a :: as) (t :: ts)
end

mutual
theorem Unfolds.unique {h : Heap} {a : Addr} {t t' : FType} : Unfolds h a t → Unfolds h a t' → t = t'
  | .mk hd hl, .mk hd' hl' => by
    rw [hd] at hd'
    cases hd'
    rw [UnfoldsL.unique hl hl']
theorem UnfoldsL.unique {h : Heap} {as : List Addr} {ts ts' : List FType} :
    UnfoldsL h as ts → UnfoldsL h as ts' → ts = ts'
  | .nil, .nil => rfl
  | .cons h1 h2, .cons h1' h2' => by rw [Unfolds.unique h1 h1', UnfoldsL.unique h2 h2']
end

mutual
/-- Following the pointers to a given depth. -/
def tree : Nat → Heap → Addr → Option FType
  | 0, _, _ => none
  | n + 1, h, a =>
    match h a with
    | none => none
    | some d =>
      match trees n h (d.elements.getD []) with
      | none => none
      | some ts => some (.mk d.size d.align d.tc ts)
  termination_by n _ _ => (n, 0)
def trees : Nat → Heap → List Addr → Option (List FType)
  | _, _, [] => some []
  | n, h, a :: as =>
    match tree n h a, trees n h as with
    | some t, some ts => some (t :: ts)
    | _, _ => none
  termination_by n _ as => (n, as.length + 1)
end

mutual
theorem tree_unfolds {n : Nat} {h : Heap} {a : Addr} {t : FType} (ht : tree n h a = some t) :
    Unfolds h a t := by
  cases n with
  | zero => simp [tree] at ht
  | succ n =>
    rw [tree] at ht
    split at ht
    · cases ht
    · rename_i d hd
      split at ht
      · cases ht
      · rename_i ts hts
        cases ht
        exact .mk hd (trees_unfolds hts)
  termination_by (n, 0)
theorem trees_unfolds {n : Nat} {h : Heap} {as : List Addr} {ts : List FType} (ht : trees n h as = some ts) :
    UnfoldsL h as ts := by
  cases as with
  | nil => rw [trees] at ht; cases ht; exact .nil
  | cons a as =>
    rw [trees] at ht
    split at ht
    · rename_i t ts h1 h2
      cases ht
      exact .cons (tree_unfolds h1) (trees_unfolds h2)
    · cases ht
  termination_by (n, as.length + 1)
end

mutual
theorem Unfolds.tree {h : Heap} {a : Addr} {t : FType} : Unfolds h a t →
    ∃ N, ∀ n, N ≤ n → tree n h a = some t
  | .mk (d := d) hd hl => by
    obtain ⟨N, hN⟩ := UnfoldsL.trees hl
    refine ⟨N + 1, fun n hn => ?_⟩
    obtain ⟨m, rfl⟩ : ∃ m, n = m + 1 := ⟨n - 1, by omega⟩
    rw [Verif.tree, hd]
    dsimp only
    rw [hN m (by omega)]
theorem UnfoldsL.trees {h : Heap} {as : List Addr} {ts : List FType} : UnfoldsL h as ts →
    ∃ N, ∀ n, N ≤ n → trees n h as = some ts
  | .nil => ⟨0, fun n _ => by rw [Verif.trees]⟩
  | .cons h1 h2 => by
    obtain ⟨N, hN⟩ := Unfolds.tree h1
    obtain ⟨M, hM⟩ := UnfoldsL.trees h2
    refine ⟨max N M, fun n hn => ?_⟩
    rw [Verif.trees, hN n (by omega), hM n (by omega)]
end

/-! ## Declarations -/

namespace Spec

/-- A type as a program declares it, before any call of the library: the descriptors of
the library for the scalar and complex types of the data model (src/types.c), and
structs with `size` zero whose elements are declared types. -/
inductive Declared (tab : ScalarTab) (h : Heap) : Addr → Prop
  | scalar {a s al tc} : h a = some ⟨s, al, tc, none⟩ → tab tc = some (s, al) → Declared tab h a
  | complex {a e s al tc} : h a = some ⟨2 * s, al, .complex, some [e]⟩ →
      h e = some ⟨s, al, tc, none⟩ → complexBase tc = true → tab tc = some (s, al) →
      Declared tab h a
  | struct {a al es} : h a = some ⟨0, al, .struct, some es⟩ → (∀ e ∈ es, Declared tab h e) →
      Declared tab h a

/-- `ffi_type_void`, src/types.c:34-42. -/
def IsVoid (h : Heap) (a : Addr) : Prop := h a = some ⟨1, 1, .void, none⟩

/-- The tree of `ffi_type_void`. -/
def voidT : FType := .mk 1 1 .void []

end Spec

theorem Spec.Declared.ptr {tab : ScalarTab} {h : Heap} {a : Addr} (hd : Declared tab h a) :
    ∃ d, h a = some d := by
  cases hd with
  | scalar h1 _ => exact ⟨_, h1⟩
  | complex h1 _ _ _ => exact ⟨_, h1⟩
  | struct h1 _ => exact ⟨_, h1⟩

/-- Trees of the members of a struct. -/
theorem members_trees {tab : ScalarTab} {h0 h : Heap} {es : List Addr} {ms : List (Nat × Nat)}
    (hm : Members h0 es ms)
    (ih : ∀ e ∈ es, ∃ t, Unfolds h e t ∧ WF tab t ∧ Layout h0 e t.size t.align) :
    ∃ ts, UnfoldsL h es ts ∧ (∀ t ∈ ts, WF tab t) ∧ ts.map (fun e => (e.size, e.align)) = ms := by
  induction es generalizing ms with
  | nil => cases hm; exact ⟨[], .nil, by simp, rfl⟩
  | cons e es ihes =>
    cases hm with
    | cons hle hm =>
      obtain ⟨t, hu, hwf, hlt⟩ := ih e (by simp)
      obtain ⟨ts, hus, hwfs, hms⟩ := ihes hm (fun x hx => ih x (by simp [hx]))
      obtain ⟨e1, e2⟩ := hlt.unique hle
      refine ⟨t :: ts, .cons hu hus, ?_, by simp [hms, e1, e2]⟩
      intro x hx
      rcases List.mem_cons.1 hx with rfl | hx
      · exact hwf
      · exact hwfs x hx

/-- A declared type that has been laid out unfolds to a well-formed tree. -/
theorem declared_unfolds {tab : ScalarTab} (ht : TabOk tab) {h0 h : Heap} (hs : Settled h0 h)
    {a : Addr} (hd : Declared tab h0 a) (hc : Closed h0 h a) :
    ∃ t, Unfolds h a t ∧ WF tab t ∧ Layout h0 a t.size t.align := by
  have keep : ∀ {b d}, h0 b = some d → d.size ≠ 0 → h b = some d := by
    intro b d hb hne
    have hu : ¬ Unset h0 b := by
      rintro ⟨d', hd', h0'⟩; rw [hb] at hd'; cases hd'; exact hne h0'
    exact ((hs.good b).of_not_unset hu).trans hb
  induction hd with
  | @scalar a s al tc ha htab =>
    have hpos := (ht tc s al htab).2.1
    have hne : s ≠ 0 := by omega
    exact ⟨.mk s al tc [], .mk (keep ha hne) .nil, .scalar htab, .preset ha hne⟩
  | @complex a e s al tc ha he hb htab =>
    have hpos := (ht tc s al htab).2.1
    have hne : s ≠ 0 := by omega
    have hne2 : 2 * s ≠ 0 := by omega
    exact ⟨.mk (2 * s) al .complex [.mk s al tc []],
      .mk (keep ha hne2) (.cons (.mk (keep he hne) .nil) .nil), .complex hb htab,
      .preset ha hne2⟩
  | @struct a al es ha hes ih =>
    obtain ⟨d, hda, hne⟩ := hc a (.refl a)
    have hl := (hs.good a).layout hda hne
    have hsub : ∀ e ∈ es, Closed h0 h e := fun e he c hv => hc c (.step ha rfl rfl he hv)
    rcases hs.good a with hg | ⟨d', s', al', h1, h2, h3, h4⟩
    · rw [hg, ha] at hda
      cases hda
      exact absurd rfl hne
    · rw [ha] at h1
      cases h1
      rw [h4] at hda
      cases hda
      have hl2 := hl
      cases hl with
      | preset hd' hs' => rw [ha] at hd'; cases hd'; exact absurd rfl hs'
      | @agg _ d2 es' ms offs _ _ hd' _ he hm hsl _ =>
        rw [ha] at hd'
        cases hd'
        cases he
        have hts := members_trees (h := h) (tab := tab) hm fun e he => ih e he (hsub e he)
        obtain ⟨ts, hus, hwfs, hms⟩ := hts
        refine ⟨.mk s' al' .struct ts, .mk h4 hus, .struct hwfs (offs := offs) (by rw [hms]; exact hsl), hl2⟩

/-! ## Machine-dependent stages on trees -/

/-- The descriptor a tree was unfolded from, without its elements. -/
def descOf (t : FType) : Desc := ⟨t.size, t.align, t.tc, none⟩

/-- What `ffi_prep_cif_core` puts into `cif->bytes`, from the trees of the signature
(src/prep_cif.c:148-205). -/
def treeBytes (T : Target) (rt : FType) (ats : List FType) : Nat :=
  ats.foldl (fun b t => if T.specificStack then b else addArgBytes T.sizeofArg b (descOf t))
    (if !T.specificStack && rt.tc == TC.struct then ffiAlign T.ptrSize T.sizeofArg else 0)

theorem bytesFold_trees {T : Target} {h : Heap} {as : List Addr} {ts : List FType}
    (hu : UnfoldsL h as ts) (b : Nat) : bytesFold T h b as =
      ts.foldl (fun b t => if T.specificStack then b else addArgBytes T.sizeofArg b (descOf t)) b := by
  induction as generalizing ts b with
  | nil => cases hu; rfl
  | cons a as ih =>
    cases hu with
    | cons h1 h2 =>
      cases h1 with
      | mk hd hl =>
        have := ih h2
        simp only [bytesFold] at this
        simp only [bytesFold, List.foldl_cons, hd, this]
        rfl

/-- The trees of the types of a cif. -/
structure Sees (h : Heap) (c : Cif) (p : FType × List FType) : Prop where
  ret : Unfolds h c.rtype p.1
  args : UnfoldsL h c.argTypes p.2

theorem Sees.unique {h : Heap} {c : Cif} {p q : FType × List FType} (hp : Sees h c p) (hq : Sees h c q) : p = q := by
  cases p; cases q
  obtain rfl := hp.ret.unique hq.ret
  obtain rfl := hp.args.unique hq.args
  rfl

/-- What a machine-dependent stage does with the types of a signature: from `cif->abi`,
whether the call is variadic, `nfixedargs`, the trees and `cif->bytes` to the status, the new
`cif->bytes` and `cif->flags`. -/
abbrev Mach := Nat → Bool → Nat → FType → List FType → Nat → Except Abn (Status × Nat × Nat)

open Classical in
/-- A machine-dependent stage that follows the descriptors; a type that does not unfold to a
tree (a dangling pointer, or a cycle) is not survived. -/
noncomputable def onTrees (mach : Mach) (isvar : Bool) (nfixed : Nat) (h : Heap) (c : Cif) :
    Except Abn (Status × Cif) :=
  if hp : ∃ p, Sees h c p then
    match mach c.abi isvar nfixed hp.choose.1 hp.choose.2 c.bytes with
    | .ok (s, b, f) => .ok (s, { c with bytes := b, flags := f })
    | .error e => .error e
  else .error .fault

theorem onTrees_eq {mach : Mach} {isvar : Bool} {nfixed : Nat} {h : Heap} {c : Cif} {rt : FType} {ats : List FType}
    (hr : Unfolds h c.rtype rt) (ha : UnfoldsL h c.argTypes ats) :
    onTrees mach isvar nfixed h c =
      match mach c.abi isvar nfixed rt ats c.bytes with
      | .ok (s, b, f) => .ok (s, { c with bytes := b, flags := f })
      | .error e => .error e := by
  have hp : ∃ p, Sees h c p := ⟨(rt, ats), hr, ha⟩
  have he : hp.choose = (rt, ats) := hp.choose_spec.unique ⟨hr, ha⟩
  unfold onTrees
  rw [dif_pos hp, he]

end Verif
