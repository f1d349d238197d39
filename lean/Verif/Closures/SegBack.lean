import Verif.Closures.SegOps

/-
Which bytes of the temporary file have been written.
-/
namespace Verif.Dual
open Verif

/-- The first `n` bytes of a file that was never truncated were written, and the position is
not before them. -/
def FileBk (f : File) (n : Nat) : Prop := f.cut = false → n ≤ f.pos ∧ ∀ o, o < f.pos → f.backed o = true

def Bk (st : St) : Prop := ∀ fd f, st.execfd = some fd → st.files fd = some f → FileBk f st.execsize

theorem write_bk {w : World} {fd n r : Nat} {st st' : St} {f : File} (hf : st.files fd = some f) (h : st.write w fd n = .ok (r, st')) :
    r ≤ n ∧ ∃ f', st'.files fd = some f' ∧ f'.pos = f.pos + r ∧ ∀ m, FileBk f m → FileBk f' m := by
  unfold St.write at h
  rw [hf] at h
  simp only [Except.ok.injEq, Prod.mk.injEq] at h
  obtain ⟨rfl, rfl⟩ := h
  refine ⟨Nat.min_le_left _ _, _, if_pos rfl, rfl, fun m hb hc => ?_⟩
  obtain ⟨h1, h2⟩ := hb hc
  refine ⟨by show m ≤ f.pos + _; omega, fun o ho => ?_⟩
  have ho : o < f.pos + min n (w.write st.clock f n) := ho
  by_cases hlt : o < f.pos
  · show (f.backed o || _) = true
    rw [h2 o hlt]; rfl
  · show (f.backed o || (decide (f.pos ≤ o) && decide (o < f.pos + min n (w.write st.clock f n)))) = true
    simp [ho]
    omega

theorem allocSpace_bk {c : Cfg} {w : World} {fd : Nat} : ∀ {k len : Nat} {st : St} {b} {st' : St} {f : File}, st.files fd = some f →
    allocSpace c w fd k len st = .ok (b, st') → ∃ f', st'.files fd = some f' ∧ (∀ m, FileBk f m → FileBk f' m) ∧ (b = true → f'.pos = f.pos + len)
  | k, 0, st, b, st', f, hf, h => by
    have : allocSpace c w fd k 0 st = .ok (true, st) := by cases k <;> rfl
    rw [this] at h
    simp only [Except.ok.injEq, Prod.mk.injEq] at h
    obtain ⟨_, rfl⟩ := h
    exact ⟨f, hf, fun _ h => h, fun _ => rfl⟩
  | 0, len + 1, st, b, st', f, hf, h => by simp [allocSpace] at h
  | k + 1, len + 1, st, b, st', f, hf, h => by
    unfold allocSpace at h
    have hn : (if len + 1 < c.page then len + 1 else c.page) ≤ len + 1 := by split <;> omega
    generalize (if len + 1 < c.page then len + 1 else c.page) = n at *
    cases hw : st.write w fd n with
    | error e => simp [hw, bind, Except.bind] at h
    | ok x =>
      obtain ⟨r, st1⟩ := x
      simp only [hw, bind, Except.bind] at h
      obtain ⟨w1, f1, w2, w3, w4⟩ := write_bk hf hw
      split at h
      · simp only [pure, Except.pure, Except.ok.injEq, Prod.mk.injEq] at h
        obtain ⟨rfl, rfl⟩ := h
        exact ⟨f1, w2, w4, by simp⟩
      · obtain ⟨f2, a1, a2, a3⟩ := allocSpace_bk w2 h
        exact ⟨f2, a1, fun m hm => a2 m (w4 m hm), fun hb => by rw [a3 hb, w3]; omega⟩

theorem allocSpace_cut {c : Cfg} {w : World} {fd : Nat} : ∀ {k len : Nat} {st : St} {b} {st' : St} {f : File}, st.files fd = some f →
    allocSpace c w fd k len st = .ok (b, st') → ∃ f', st'.files fd = some f' ∧ f'.cut = f.cut
  | k, 0, st, b, st', f, hf, h => by
    have : allocSpace c w fd k 0 st = .ok (true, st) := by cases k <;> rfl
    rw [this] at h
    simp only [Except.ok.injEq, Prod.mk.injEq] at h
    obtain ⟨_, rfl⟩ := h
    exact ⟨f, hf, rfl⟩
  | 0, len + 1, st, b, st', f, hf, h => by simp [allocSpace] at h
  | k + 1, len + 1, st, b, st', f, hf, h => by
    unfold allocSpace at h
    generalize (if len + 1 < c.page then len + 1 else c.page) = n at *
    unfold St.write at h
    rw [hf] at h
    simp only [bind, Except.bind] at h
    split at h
    · simp only [pure, Except.pure, Except.ok.injEq, Prod.mk.injEq] at h
      obtain ⟨_, rfl⟩ := h
      exact ⟨_, if_pos rfl, rfl⟩
    · obtain ⟨f2, a1, a2⟩ := allocSpace_cut (if_pos rfl) h
      exact ⟨f2, a1, a2⟩

theorem ftruncate_bk {w : World} {fd len : Nat} {st st' : St} {f : File} (hf : st.files fd = some f) (h : st.ftruncate w fd len = .ok st') :
    ∃ f', st'.files fd = some f' ∧ ∀ m, FileBk f m → FileBk f' m := by
  unfold St.ftruncate at h
  rw [hf] at h
  simp only [Except.ok.injEq] at h
  subst h
  split
  · exact ⟨_, if_pos rfl, fun m _ hc => by simp at hc⟩
  · exact ⟨f, hf, fun _ h => h⟩

theorem mapFile_bk {c : Cfg} {w : World} (hF : FreshFd w) {fd len : Nat} {st st' : St} {r} {f : File} (hf : st.files fd = some f)
    (hb : FileBk f st.execsize) (h : mapFile c w fd len st = .ok (some r, st')) :
    ∃ f', st'.files fd = some f' ∧ FileBk f' st'.execsize := by
  unfold mapFile at h
  cases ha : allocSpace c w fd len len st with
  | error e => simp [ha, bind, Except.bind] at h
  | ok x =>
  obtain ⟨ok, st1⟩ := x
  simp only [ha, bind, Except.bind] at h
  have k1 : Keep st st1 := allocSpace_keep ha
  obtain ⟨f1, a1, a2, a3⟩ := allocSpace_bk hf ha
  cases ok with
  | false =>
    simp only [if_true, pure, Except.pure, Except.ok.injEq, Prod.mk.injEq] at h
    obtain ⟨_, rfl⟩ := h
    exact ⟨f1, a1, by rw [k1.execsize]; exact a2 _ hb⟩
  | true =>
  simp only [Bool.true_eq_false, if_false] at h
  simp only [a1] at h
  have kk := mmap_keep w len (fun o => ⟨.file f1.id (st.execsize + o), false, true⟩) st1
  cases hm : st1.mmap w len (fun o => ⟨.file f1.id (st.execsize + o), false, true⟩) with
  | mk ptr st2 =>
  rw [hm] at kk
  obtain ⟨k2, hfiles2⟩ := kk
  simp only at k2 hfiles2
  simp only [hm] at h
  have k12 := k1.trans k2
  cases ptr with
  | none =>
    simp only at h
    split at h
    · simp [pure, Except.pure] at h
    · cases ht : st2.ftruncate w fd st.execsize with
      | error e => simp [ht] at h
      | ok st3 =>
        simp only [ht, pure, Except.pure, Except.ok.injEq, Prod.mk.injEq] at h
        obtain ⟨_, rfl⟩ := h
        obtain ⟨f2, t1, t2⟩ := ftruncate_bk (by rw [hfiles2]; exact a1) ht
        exact ⟨f2, t1, by rw [(k12.trans (ftruncate_keep ht)).execsize]; exact t2 _ (a2 _ hb)⟩
  | some ptr =>
    simp only at h
    cases hl : leaveList c w st.execsize st2 with
    | error e => simp [hl] at h
    | ok st3 =>
    simp only [hl] at h
    have g3 := leaveList_grow hl
    have hf3 : st3.files fd = some f1 := g3.keep hF fd f1 (by rw [hfiles2]; exact a1)
    have kk := mmap_keep w len (fun o => ⟨.file f1.id (st.execsize + o), true, false⟩) st3
    cases hm3 : st3.mmap w len (fun o => ⟨.file f1.id (st.execsize + o), true, false⟩) with
    | mk start st4 =>
    rw [hm3] at kk
    obtain ⟨k4, hfiles4⟩ := kk
    simp only at k4 hfiles4
    simp only [hm3] at h
    have e4 : st4.execsize = st.execsize := by rw [k4.execsize, g3.execsize, k12.execsize]
    cases start with
    | none =>
      simp only at h
      have ku := munmap_keep w ptr len st4
      rcases hu : st4.munmap w ptr len with ⟨b, st5⟩
      rw [hu] at ku
      simp only [hu] at h
      cases ht : st5.ftruncate w fd st.execsize with
      | error e => simp [ht] at h
      | ok st6 =>
        simp only [ht, pure, Except.pure, Except.ok.injEq, Prod.mk.injEq] at h
        obtain ⟨_, rfl⟩ := h
        obtain ⟨f2, t1, t2⟩ := ftruncate_bk (f := f1) (by rw [ku.2, hfiles4]; exact hf3) ht
        exact ⟨f2, t1, by rw [(ftruncate_keep ht).execsize, ku.1.execsize, e4]; exact t2 _ (a2 _ hb)⟩
    | some start =>
      simp only at h
      cases hsw : st4.setW (start + len - c.word) ((ptr : Int) - (start : Int)) with
      | error e => simp [hsw] at h
      | ok st5 =>
        simp only [hsw, pure, Except.pure, Except.ok.injEq, Prod.mk.injEq] at h
        obtain ⟨_, rfl⟩ := h
        obtain ⟨w1, w2, w3, w4, w5, w6⟩ := setW_spec hsw
        refine ⟨f1, by show st5.files fd = _; rw [w4, hfiles4]; exact hf3, ?_⟩
        show FileBk f1 (st5.execsize + len)
        rw [w3, e4]
        intro hc
        obtain ⟨b1, b2⟩ := a2 _ hb hc
        refine ⟨?_, b2⟩
        have hp := a3 rfl
        have hcut : f.cut = false := by
          have := allocSpace_cut hf ha
          obtain ⟨f1', q1, q2⟩ := this
          rw [a1] at q1
          obtain rfl := Option.some.inj q1
          rw [← q2]; exact hc
        have := (hb hcut).1
        omega

/-! ## New files -/

/-- The result of a search is an empty file. -/
def NewFile (r : Option Nat × St) : Prop := ∀ fd, r.1 = some fd → ∃ f, r.2.files fd = some f ∧ FileBk f 0

theorem opened_new (st : St) (fd : Option Nat) (tr) : NewFile (fd, { st.opened fd with tr := tr }) := by
  rintro n hn
  simp only at hn
  subst hn
  exact ⟨_, if_pos rfl, fun _ => ⟨le_rfl, fun o ho => by simp at ho⟩⟩

theorem openDir_new (c : Cfg) (w : World) (dir : String) (st : St) : NewFile (openDir c w dir st) := by
  unfold openDir openName
  simp only
  split
  · split
    · rename_i fd _
      exact opened_new _ (some fd) _
    · split
      · exact opened_new _ _ _
      · intro fd h; simp at h
  · exact opened_new _ _ _

theorem mntLoop_new (c : Cfg) (w : World) : ∀ (l : List Mnt) (st : St), NewFile (mntLoop c w l st)
  | [], st => by intro fd h; simp [mntLoop] at h
  | m :: ms, st => by
    unfold mntLoop
    split
    · have := openDir_new c w m.dir st
      rcases h : openDir c w m.dir st with ⟨fd, st1⟩
      rw [h] at this
      cases fd with
      | some fd => exact this
      | none => exact mntLoop_new c w ms st1
    · exact mntLoop_new c w ms st

theorem openMnt_new (c : Cfg) (w : World) (p) (st : St) : NewFile (openMnt c w p st) := by
  have key : ∀ st1 : St, NewFile (match st1.lastMntent with
      | none => ((none, st1) : Option Nat × St)
      | some l => mntLoop c w l st1) := by
    intro st1
    split
    · intro fd h; simp at h
    · exact mntLoop_new c w _ _
  exact key _

theorem call_new (c : Cfg) (w : World) (o : Opt) (st : St) : NewFile (o.call c w st) := by
  unfold Opt.call
  split
  · exact opened_new _ _ _
  · unfold openEnv
    split
    · intro fd h; simp at h
    · exact openDir_new c w _ st
  · exact openDir_new c w _ st
  · exact openMnt_new c w _ st

theorem search_new {c : Cfg} {w : World} (hF : FreshFd w) : ∀ {k : Nat} {st st' : St} {fd}, search c w k st = .ok (fd, st') → NewFile (fd, st')
  | 0, _, _, _, h => by simp [search] at h
  | k + 1, st, st', fd, h => by
    unfold search at h
    split at h
    · simp at h
    · rename_i o _
      have h1 := call_new c w o st
      rcases hc : o.call c w st with ⟨fd1, st1⟩
      rw [hc] at h h1
      simp only [bind, Except.bind, pure, Except.pure] at h
      split at h
      · split at h
        · simp at h
        · rename_i v hv
          obtain ⟨b, st2⟩ := v
          have h2 := optsNext_grow hv
          split at h
          · simp only [Except.ok.injEq, Prod.mk.injEq] at h
            obtain ⟨rfl, rfl⟩ := h
            intro fd hfd
            obtain ⟨f, k1, k2⟩ := h1 fd hfd
            exact ⟨f, h2.keep hF fd f k1, k2⟩
          · exact search_new hF h
      · simp only [Except.ok.injEq, Prod.mk.injEq] at h
        obtain ⟨rfl, rfl⟩ := h
        exact h1

theorem retryOpen_bk {c : Cfg} {w : World} (hM : FreshMap w) (hF : FreshFd w) {len : Nat} (hw : 0 < c.word) (hlen : c.word ≤ len) :
    ∀ {k : Nat} {st st' : St} {r}, st.execsize = 0 → retryOpen c w len k st = .ok (r, st') → Bk st'
  | 0, _, _, _, _, h => by simp [retryOpen] at h
  | k + 1, st, st', r, hz, h => by
    unfold retryOpen at h
    cases hs : search c w k st with
    | error e => simp [hs, bind, Except.bind] at h
    | ok x =>
    obtain ⟨fd, st1⟩ := x
    have hg := search_grow hs
    have hn := search_new hF hs
    simp only [hs, bind, Except.bind] at h
    cases fd with
    | none =>
      simp only [pure, Except.pure, Except.ok.injEq, Prod.mk.injEq] at h
      obtain ⟨rfl, rfl⟩ := h
      intro fd f he
      simp at he
    | some fd =>
      simp only at h
      cases hm : mapFile c w fd len { st1 with execfd := some fd } with
      | error e => simp [hm] at h
      | ok x =>
      obtain ⟨r1, st2⟩ := x
      simp only [hm] at h
      obtain ⟨f, n1, n2⟩ := hn fd rfl
      obtain ⟨m1, m2, m3⟩ := mapFile_map (y := ⟨true, true, true, true, 0⟩) hM hF hw hlen rfl hm
      cases r1 with
      | none => exact retryOpen_bk hM hF hw hlen m3.2.1 h
      | some r1 =>
        simp only [pure, Except.pure, Except.ok.injEq, Prod.mk.injEq] at h
        obtain ⟨_, rfl⟩ := h
        obtain ⟨f', p1, p2⟩ := mapFile_bk hF (st := { st1 with execfd := some fd }) n1
          (by show FileBk f st1.execsize; rw [hg.execsize, hz]; exact n2) hm
        intro fd' f'' he hf
        rw [m2] at he
        obtain rfl := Option.some.inj he
        rw [p1] at hf
        obtain rfl := Option.some.inj hf
        exact p2

theorem dlmmapLocked_bk {c : Cfg} {w : World} (hM : FreshMap w) (hF : FreshFd w) {len : Nat} (hw : 0 < c.word) (hlen : c.word ≤ len)
    {k : Nat} {st st' : St} {r} (hz : st.execfd = none → st.execsize = 0) (hfile : ∀ fd, st.execfd = some fd → st.files fd ≠ none)
    (hb : Bk st) (h : dlmmapLocked c w k len st = .ok (r, st')) : Bk st' := by
  unfold dlmmapLocked at h
  cases he : st.execfd with
  | none =>
    simp only [he] at h
    exact retryOpen_bk hM hF hw hlen (st := { st with idx := 0, execfd := none }) (hz he) h
  | some fd =>
    simp only [he] at h
    cases hm : mapFile c w fd len st with
    | error e => simp [hm, bind, Except.bind] at h
    | ok x =>
      obtain ⟨r1, st1⟩ := x
      simp only [hm, bind, Except.bind] at h
      obtain ⟨m1, m2, m3⟩ := mapFile_map (y := ⟨true, true, true, true, 0⟩) hM hF hw hlen he hm
      cases r1 with
      | none => exact retryOpen_bk hM hF hw hlen m3.2.1 h
      | some r1 =>
        simp only [pure, Except.pure, Except.ok.injEq, Prod.mk.injEq] at h
        obtain ⟨_, rfl⟩ := h
        obtain ⟨f, hf⟩ := Option.ne_none_iff_exists'.1 (hfile fd he)
        obtain ⟨f', p1, p2⟩ := mapFile_bk hF hf (hb fd f he hf) hm
        intro fd' f'' he hf
        rw [m2] at he
        obtain rfl := Option.some.inj he
        rw [p1] at hf
        obtain rfl := Option.some.inj hf
        exact p2

theorem dlmmap_bk {c : Cfg} {w : World} {y : Sys} (hM : FreshMap w) (hF : FreshFd w) {len : Nat} (hw : 0 < c.word) (hlen : c.word ≤ len)
    {k : Nat} {st st' : St} {r} (hz : st.execfd = none → st.execsize = 0) (hfile : ∀ fd, st.execfd = some fd → st.files fd ≠ none)
    (hb : Bk st) (h : dlmmap c w y k len st = .ok (r, st')) : Bk st' := by
  have hanon : ∀ x, st.execfd = none → ((st.mmapAnon w len x).2.execfd = none) := fun x he => (mmapAnon_keep w len x st).1.execfd.trans he
  have hnone : ∀ st : St, st.execfd = none → Bk st := fun st he fd f h => by rw [he] at h; simp at h
  unfold dlmmap at h
  split at h
  · rename_i e
    have := Except.ok.inj h
    rw [show st' = (st.mmapAnon w len false).2 by rw [this]]
    exact hnone _ (hanon _ e.1)
  · split at h
    · rename_i e
      split at h
      · have := Except.ok.inj h
        rw [show st' = (st.mmapAnon w len false).2 by rw [this]]
        exact hnone _ (hanon _ e.1)
      · exact dlmmapLocked_bk hM hF hw hlen hz hfile hb h
    · split at h
      · rename_i e
        have hx := hanon true e.1
        have hk := (mmapAnon_keep w len true st).1
        rcases hm : st.mmapAnon w len true with ⟨r1, st1⟩
        rw [hm] at hx h hk
        cases r1 with
        | some a =>
          simp only [Except.ok.injEq, Prod.mk.injEq] at h
          rw [← h.2]
          exact hnone _ hx
        | none =>
          simp only at h
          split at h
          · exact dlmmapLocked_bk hM hF hw hlen (fun _ => hk.execsize.trans (hz e.1)) (fun fd hfd => by rw [hx] at hfd; simp at hfd) (hnone _ hx) h
          · simp only [Except.ok.injEq, Prod.mk.injEq] at h
            rw [← h.2]
            exact hnone _ hx
      · exact dlmmapLocked_bk hM hF hw hlen hz hfile hb h

theorem Bk.keep {st st' : St} (h : Bk st) (hk : Keep st st') (hf : st'.files = st.files) : Bk st' := by
  intro fd f h1 h2
  rw [hk.execsize]
  exact h fd f (hk.execfd ▸ h1) (hf ▸ h2)

theorem releaseLoop_files {w : World} {empty : Seg → Bool} : ∀ {l pre : List Seg} {g : G},
    Keep g.s (releaseLoop w empty pre l g).s ∧ (releaseLoop w empty pre l g).s.files = g.s.files
  | [], _, g => ⟨⟨⟨rfl, rfl, rfl⟩, rfl, rfl, rfl⟩, rfl⟩
  | s :: l, pre, g => by
    unfold releaseLoop
    split
    · rcases hm : dlmunmap w s.base s.size { g with segs := pre ++ s :: l } with ⟨b, g1⟩
      have hu := dlmunmap_spec hm
      have hk : Keep g.s g1.s := hu.keep
      have hf : g1.s.files = g.s.files := hu.files
      cases b with
      | true => exact ⟨hk.trans releaseLoop_files.1, releaseLoop_files.2.trans hf⟩
      | false => exact ⟨hk.trans releaseLoop_files.1, releaseLoop_files.2.trans hf⟩
    · exact releaseLoop_files

theorem sysTrim_files {w : World} {a extra : Nat} {pinned : Bool} {g g' : G} (h : sysTrim w a extra pinned g = .ok g') :
    Keep g.s g'.s ∧ g'.s.files = g.s.files := by
  unfold sysTrim at h
  split at h
  · simp at h
  · rename_i u hu0
    split at h
    · rcases hm : dlmunmap w (u.base + (u.size - extra)) extra g with ⟨b, g1⟩
      rw [hm] at h
      have hu := dlmunmap_spec hm
      cases b with
      | true =>
        simp only [Except.ok.injEq] at h
        subst h
        exact ⟨hu.keep, hu.files⟩
      | false =>
        simp only [Except.ok.injEq] at h
        subst h
        exact ⟨hu.keep, hu.files⟩
    · simp only [Except.ok.injEq] at h
      subst h
      exact ⟨⟨⟨rfl, rfl, rfl⟩, rfl, rfl, rfl⟩, rfl⟩

theorem bk_reach {c : Cfg} {w : World} {y : Sys} (hok : SizesOk c y) (hM : FreshMap w) (hF : FreshFd w) {g : G} (h : SReach c w y g) :
    g.half = false → Bk g.s := by
  induction h with
  | init vm => intro _ fd f h; simp [G.init, St.init] at h
  | @alloc g top k nb b g' hr hs ih =>
    intro hh
    have h0 : g.half = false := by rw [← sysAlloc_half hs]; exact hh
    have hi := sinv_reach hok hM hF hr h0
    have hfoot := hok.foot
    have hreq := reqSize_ge c y nb hok.page
    have hlen : c.word ≤ reqSize c y nb := by omega
    unfold sysAlloc at hs
    cases hm : dlmmap c w y k (reqSize c y nb) g.s with
    | error e => simp [hm, bind, Except.bind] at hs
    | ok x =>
      obtain ⟨r, st⟩ := x
      have hb := dlmmap_bk hM hF hok.word hlen hi.zero hi.inv.file (ih h0) hm
      have hres := dlmmap_map hM hF hok.word hlen hi.zero hm
      simp only [hm, bind, Except.bind] at hs
      cases r with
      | none =>
        simp only [pure, Except.pure, Except.ok.injEq, Prod.mk.injEq] at hs
        rw [← hs.2]
        exact hb
      | some a =>
        simp only at hs
        obtain ⟨b', mk, hn⟩ := hres.ok a rfl
        have hv := hi.views.cons hn
        obtain ⟨g2, p1, p2, p3, p4⟩ := placeNew_ok hok top (g := { g with s := st }) hn.toFresh (by omega) hv
        simp only [p1, pure, Except.pure, Except.ok.injEq, Prod.mk.injEq] at hs
        rw [← hs.2]
        exact Bk.keep (st := st) hb ⟨p2.same, p2.tr, p2.execfd, p2.execsize⟩ p2.files
  | @release g empty hr ih =>
    intro hh
    have hb := ih (releaseUnused_half hh)
    unfold releaseUnused
    split
    · exact hb
    · exact hb.keep releaseLoop_files.1 releaseLoop_files.2
  | trim hr hs ih => exact fun hh => (ih (sysTrim_half hs hh)).keep (sysTrim_files hs).1 (sysTrim_files hs).2
  | @search g k fd st' hr hs ih =>
    intro hh fd f h1 h2
    have h1 : st'.execfd = some fd := h1
    have h2 : st'.files fd = some f := h2
    have hg := search_grow hs
    have hi := sinv_reach hok hM hF hr hh
    rw [hg.execfd] at h1
    obtain ⟨f0, hf0⟩ := Option.ne_none_iff_exists'.1 (hi.inv.file fd h1)
    have := hg.keep hF fd f0 hf0
    rw [h2] at this
    obtain rfl := Option.some.inj this
    show FileBk f st'.execsize
    rw [hg.execsize]
    exact ih hh fd f h1 hf0
  | @other g st' _ h1 h2 h3 h4 h5 h6 h7 h8 h9 ih =>
    intro hh fd f e1 e2
    have e1 : st'.execfd = some fd := e1
    have e2 : st'.files fd = some f := e2
    rw [h6] at e1
    rw [h8 fd e1] at e2
    show FileBk f st'.execsize
    rw [h7]
    exact ih hh fd f e1 e2

end Verif.Dual
