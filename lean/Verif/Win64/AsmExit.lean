import Verif.Win64.AsmLemmas
import Verif.X64.AsmRefine

/-! `ffi_call_win64` after the call. -/
namespace Verif.Win64.Asm
open Verif

variable {c : Ctx} {lo : Nat}

/-- Where the code of `l98` and `l99` and the entry `k` of the table lies. -/
def ent (cfg : Cfg) (k : Nat) : Nat := off cfg .table + k * 8

theorem exitBlock (cfg : Cfg) : Block cfg rowB (eo cfg + 65)
    [(3, .ld 4 1 5 24), (4, .ld 8 8 5 32), (7, .leap 10 .table), (3, .cmpl 1 18), (4, .leax 10 10 1 8), (6, .ja .l99),
     (if cfg.cet then 4 else 3, .jmpr 10)] := by
  obtain ⟨_ | _, _ | _, _ | _⟩ := cfg <;> decide +kernel

/-- What follows the dispatch for each kind of result. -/
def body : Flag → List (Nat × Ins)
  | .tc .void | .tc .struct => []
  | .tc .int | .tc .sint32 => [(3, .ext 4 true 0 0), (3, .st 8 0 8 0)]
  | .tc .float => [(5, .stx 4 0 8 0)]
  | .tc .double => [(5, .stx 8 0 8 0)]
  | .tc .longdouble | .tc .complex => [(5, .callx 0)]
  | .tc .uint8 => [(3, .ext 1 false 0 0), (3, .st 8 0 8 0)]
  | .tc .sint8 => [(4, .ext 1 true 0 0), (2, .jmp .l98)]
  | .tc .uint16 => [(3, .ext 2 false 0 0), (3, .st 8 0 8 0)]
  | .tc .sint16 => [(4, .ext 2 true 0 0), (2, .jmp .l98)]
  | .tc .uint32 => [(2, .ext 4 false 0 0), (3, .st 8 0 8 0)]
  | .tc .uint64 | .tc .sint64 | .tc .pointer => [(3, .st 8 0 8 0)]
  | .small1 => [(3, .st 1 0 8 0)]
  | .small2 => [(4, .st 2 0 8 0)]
  | .small4 => [(3, .st 4 0 8 0)]

/-- Whether the body runs into the epilogue. -/
def falls : Flag → Bool
  | .tc .longdouble | .tc .complex | .tc .sint8 | .tc .sint16 => false
  | _ => true

def allFlags : List Flag :=
  [.tc .void, .tc .int, .tc .float, .tc .double, .tc .longdouble, .tc .uint8, .tc .sint8, .tc .uint16, .tc .sint16, .tc .uint32, .tc .sint32,
   .tc .uint64, .tc .sint64, .tc .struct, .tc .pointer, .tc .complex, .small1, .small2, .small4]

theorem mem_allFlags (fl : Flag) : fl ∈ allFlags := by
  rcases fl with tc | _ | _ | _
  · cases tc <;> decide
  all_goals decide

/-- The block and the epilogue. -/
def entryB (cfg : Cfg) (fl : Flag) : Bool :=
  let l := body fl ++ if falls fl then [(1, .leave)] else []
  let n := ((body fl).map (·.1)).sum
  blockB cfg rowB (ent cfg fl.code) l && (!falls fl || blockB cfg rowA (ent cfg fl.code + n + 1) [(1, .ret)])

theorem entries (cfg : Cfg) (fl : Flag) : entryB cfg fl = true := by
  have : ∀ fl ∈ allFlags, entryB cfg fl = true := by
    obtain ⟨_ | _, _ | _, _ | _⟩ := cfg <;> decide +kernel
  exact this fl (mem_allFlags fl)

theorem entry_block (cfg : Cfg) (fl : Flag) : Block cfg rowB (ent cfg fl.code) (body fl ++ if falls fl then [(1, .leave)] else []) := by
  have := entries cfg fl
  simp only [entryB, Bool.and_eq_true] at this
  exact this.1

theorem entry_ret (cfg : Cfg) (fl : Flag) (h : falls fl = true) :
    Block cfg rowA (ent cfg fl.code + ((body fl).map (·.1)).sum + 1) [(1, .ret)] := by
  have := entries cfg fl
  simp only [entryB, Bool.and_eq_true, h, Bool.not_true, Bool.false_or] at this
  exact this.2

theorem l98Block (cfg : Cfg) : Block cfg rowB (off cfg .l98) [(3, .st 8 0 8 0), (1, .leave)] := by
  obtain ⟨_ | _, _ | _, _ | _⟩ := cfg <;> decide +kernel

theorem l98Ret (cfg : Cfg) : Block cfg rowA (off cfg .l98 + 3 + 1) [(1, .ret)] := by
  obtain ⟨_ | _, _ | _, _ | _⟩ := cfg <;> decide +kernel

attribute [local irreducible] fetch dwarf sehRow off Block eo rows

/-- The number of bytes stored. -/
def width : Flag → Nat
  | .tc .void | .tc .struct | .tc .longdouble | .tc .complex => 0
  | .tc .float => 4
  | .small1 => 1
  | .small2 => 2
  | .small4 => 4
  | _ => 8

/-- The result registers of a state. -/
def retRegs (s : St) : RetRegs := ⟨leBytes 8 (s.r 0), (s.x 0).take 8⟩

/-- `leave; ret`. -/
theorem epilogue_safe {s : St} {o F ra : Nat} {ss : List Nat} {g : Nat → Nat} {post : Nat → St → Prop} (hb : Block c.cfg rowB o [(1, .leave)])
    (hb' : Block c.cfg rowA (o + 1) [(1, .ret)]) (hpc : s.pc = .at_ o) (h4 : s.r 4 ≤ F) (h5 : s.r 5 = F)
    (hm : leNat (s.mem.rd (F + 8) 8) = ra) (hb5 : leNat (s.mem.rd F 8) = g 5) (hg : Saved (upd s.r 5 (g 5)) g) (hss : s.ss = ra :: ss)
    (hpost : ∀ v t, v.r 4 = F + 16 → Saved v.r g → v.x = s.x → v.ss = ss → v.mem = s.mem → Agree (level lo (F + 16)) v t → post ra t) :
    Safe c lo (Holds c ra g (fun p => p = F + 16) post) (level lo F) s := by
  obtain ⟨pc, r, x, zf, cf, m, ss'⟩ := s
  dsimp only at hpc h4 h5 hm hb5 hg hss hpost
  subst h5
  refine lstep (L' := r 5 + 8) hb hpc h4 (fun hr t ht => holds_rbp ht hr hpc (fun a h1 h2 => .inr h1) hm hb5 rfl hg) (.inr (.inl (Nat.le_refl _))) rfl (by omega) fun _ => ?_
  refine lstep (L' := r 5 + 16) hb' rfl (Nat.le_refl _) (fun hr t ht => holds_rsp (k := 8) ht hr rfl (fun a h1 h2 => .inr ?_) ?_ ?_ ?_)
    (.inr (.inl (Nat.le_refl _))) (s' := ⟨.out ra, upd (upd (upd r 4 (r 5 + 8)) 5 (leNat (m.rd (r 5) 8))) 4 (r 5 + 8 + 8), x, zf, cf, m, ss⟩) ?_ (by omega) fun _ => ?_
  · have : r 5 + 8 + 8 - 8 ≤ a := h1
    omega
  · show leNat (m.rd (r 5 + 8 + 8 - 8) 8) = ra
    rw [Nat.add_sub_cancel, hm]
  · rfl
  · obtain ⟨k3, k5, k6, k7, k12, k13, k14, k15⟩ := hg
    exact ⟨k3, hb5, k6, k7, k12, k13, k14, k15⟩
  · subst hss
    simp only [exec]
    rw [if_pos (fun _ => by show leNat (m.rd (r 5 + 8) 8) = ra; exact hm)]
    show some (St.mk (.out (leNat (m.rd (r 5 + 8) 8))) _ _ _ _ _ _) = _
    rw [hm]
    rfl
  · refine .stop (fun a ha => ha.imp_right fun h => ?_) (fun t ht => ?_) rfl
    · show r 5 + 8 + 8 ≤ a
      omega
    · unfold Holds
      rw [ht.pc]
      refine hpost _ t ?_ ?_ rfl rfl rfl ht
      · show r 5 + 8 + 8 = r 5 + 16
        omega
      · obtain ⟨k3, k5, k6, k7, k12, k13, k14, k15⟩ := hg
        exact ⟨k3, hb5, k6, k7, k12, k13, k14, k15⟩

/-- What holds after the dispatch. -/
structure At (s : St) (lo F a ra : Nat) (ss : List Nat) (g : Nat → Nat) : Prop where
  sp : s.r 4 ≤ F
  fp : s.r 5 = F
  res : s.r 8 = a
  ret : leNat (s.mem.rd (F + 8) 8) = ra
  rbp : leNat (s.mem.rd F 8) = g 5
  saved : Saved (upd s.r 5 (g 5)) g
  shadow : s.ss = ra :: ss

theorem At.holds {s : St} {F a ra o : Nat} {ss : List Nat} {g : Nat → Nat} {post : Nat → St → Prop} (h : At s lo F a ra ss g) (hpc : s.pc = .at_ o)
    (hr : rows c.cfg o rowB = true) {t : St} (ht : Agree (level lo F) s t) : Holds c ra g (fun p => p = F + 16) post t := by
  have e := h.fp
  refine holds_rbp ht hr hpc (fun a h1 h2 => .inr ?_) ?_ ?_ ?_ h.saved
  · omega
  · rw [e, h.ret]
  · rw [e, h.rbp]
  · rw [e]

/-- A store to the result leaves the frame alone. -/
theorem At.store {s : St} {F a ra z : Nat} {ss : List Nat} {g : Nat → Nat} (h : At s lo F a ra ss g) {bs : List Byte} (hb : bs.length ≤ z)
    (hlo : lo ≤ F) (hp : a + z ≤ lo ∨ F + 16 ≤ a) (pc : Pc) : At { s with pc := pc, mem := s.mem.wr a bs } lo F a ra ss g := by
  refine ⟨h.sp, h.fp, h.res, ?_, ?_, h.saved, h.shadow⟩
  · show leNat ((s.mem.wr a bs).rd (F + 8) 8) = ra
    rw [Mem.rd_wr_disj _ _ _ _ _ (by omega), h.ret]
  · show leNat ((s.mem.wr a bs).rd F 8) = g 5
    rw [Mem.rd_wr_disj _ _ _ _ _ (by omega), h.rbp]

/-- A store, then the epilogue. -/
theorem store_safe {s : St} {o n F a ra z : Nat} {ss : List Nat} {g : Nat → Nat} {post : Nat → St → Prop} {i : Ins} {bs : List Byte}
    (hb : Block c.cfg rowB o [(n, i), (1, .leave)]) (hb' : Block c.cfg rowA (o + n + 1) [(1, .ret)])
    (hpc : s.pc = .at_ o) (h : At s lo F a ra ss g) (hld : (ld i s).2 = 0) (hz : bs.length ≤ z)
    (he : exec c o n i s = some { s with pc := .at_ (o + n), mem := s.mem.wr a bs }) (hlo : lo ≤ F) (hp : a + z ≤ lo ∨ F + 16 ≤ a)
    (hpost : ∀ v t, v.r 4 = F + 16 → Saved v.r g → v.x = s.x → v.ss = ss → v.mem = s.mem.wr a bs → Agree (level lo (F + 16)) v t → post ra t) :
    Safe c lo (Holds c ra g (fun p => p = F + 16) post) (level lo F) s := by
  refine lstep hb hpc h.sp (fun hr t ht => h.holds hpc hr ht) (.inl hld) he (Nat.le_refl _) fun b => ?_
  have h' := h.store hz hlo hp (.at_ (o + n))
  exact epilogue_safe b hb' rfl h'.sp h'.fp h'.ret h'.rbp h'.saved h'.shadow hpost

theorem At.setr {s : St} {F a ra : Nat} {ss : List Nat} {g : Nat → Nat} (h : At s lo F a ra ss g) (pc : Pc) (v : Nat) :
    At (s.set pc 0 v) lo F a ra ss g := ⟨h.sp, h.fp, h.res, h.ret, h.rbp, h.saved, h.shadow⟩

theorem exec_st {o n z a : Nat} {s : St} (h : s.r 8 = a) : exec c o n (.st z 0 8 0) s =
    some { s with pc := .at_ (o + n), mem := s.mem.wr a (leBytes z (s.r 0)) } := by
  subst h
  rfl

theorem exec_stx {o n z a : Nat} {s : St} (h : s.r 8 = a) : exec c o n (.stx z 0 8 0) s =
    some { s with pc := .at_ (o + n), mem := s.mem.wr a ((s.x 0).take z) } := by
  subst h
  rfl

/-- An extension, a store, then the epilogue. -/
theorem ext_safe {s : St} {o n n' F a ra z : Nat} {sg : Bool} {ss : List Nat} {g : Nat → Nat} {post : Nat → St → Prop}
    (hb : Block c.cfg rowB o [(n, .ext z sg 0 0), (n', .st 8 0 8 0), (1, .leave)]) (hb' : Block c.cfg rowA (o + n + n' + 1) [(1, .ret)])
    (hpc : s.pc = .at_ o) (h : At s lo F a ra ss g) (hlo : lo ≤ F) (hp : a + 8 ≤ lo ∨ F + 16 ≤ a)
    (hpost : ∀ v t, v.r 4 = F + 16 → Saved v.r g → v.x = s.x → v.ss = ss →
      v.mem = s.mem.wr a (leBytes 8 (if sg then sext z (s.r 0) else s.r 0 % 2 ^ (8 * z))) → Agree (level lo (F + 16)) v t → post ra t) :
    Safe c lo (Holds c ra g (fun p => p = F + 16) post) (level lo F) s := by
  refine lstep hb hpc h.sp (fun hr t ht => h.holds hpc hr ht) (.inl rfl) rfl (Nat.le_refl _) fun b => ?_
  have h' := h.setr (.at_ (o + n)) (if sg then sext z (s.r 0) else s.r 0 % 2 ^ (8 * z))
  exact store_safe (z := 8) b hb' rfl h' rfl (by rw [leBytes_length]) (exec_st h'.res) hlo hp hpost

/-- An extension and a jump to the store. -/
theorem extj_safe {s : St} {o n n' F a ra z : Nat} {sg : Bool} {ss : List Nat} {g : Nat → Nat} {post : Nat → St → Prop}
    (hb : Block c.cfg rowB o [(n, .ext z sg 0 0), (n', .jmp .l98)])
    (hpc : s.pc = .at_ o) (h : At s lo F a ra ss g) (hlo : lo ≤ F) (hp : a + 8 ≤ lo ∨ F + 16 ≤ a)
    (hpost : ∀ v t, v.r 4 = F + 16 → Saved v.r g → v.x = s.x → v.ss = ss →
      v.mem = s.mem.wr a (leBytes 8 (if sg then sext z (s.r 0) else s.r 0 % 2 ^ (8 * z))) → Agree (level lo (F + 16)) v t → post ra t) :
    Safe c lo (Holds c ra g (fun p => p = F + 16) post) (level lo F) s := by
  refine lstep hb hpc h.sp (fun hr t ht => h.holds hpc hr ht) (.inl rfl) rfl (Nat.le_refl _) fun b => ?_
  have h' := h.setr (.at_ (o + n)) (if sg then sext z (s.r 0) else s.r 0 % 2 ^ (8 * z))
  refine lstep b rfl h'.sp (fun hr t ht => h'.holds rfl hr ht) (.inl rfl) rfl (Nat.le_refl _) fun _ => ?_
  have h'' := h.setr (.at_ (off c.cfg .l98)) (if sg then sext z (s.r 0) else s.r 0 % 2 ^ (8 * z))
  exact store_safe (z := 8) (l98Block _) (l98Ret _) rfl h'' rfl (by rw [leBytes_length]) (exec_st h''.res) hlo hp hpost

/-- A call of `abort`. -/
theorem abort_safe {s : St} {o n F a ra : Nat} {ss : List Nat} {g : Nat → Nat} {post : Nat → St → Prop}
    (hb : Block c.cfg rowB o [(n, .callx 0)]) (hpc : s.pc = .at_ o) (h : At s lo F a ra ss g) (h8 : 8 ≤ s.r 4)
    (hpost : ∀ t, post (c.ext 0) t) :
    Safe c lo (Holds c ra g (fun p => p = F + 16) post) (level lo F) s := by
  refine lstep hb hpc h.sp (fun hr t ht => h.holds hpc hr ht) (.inl rfl) (if_pos h8) (Nat.le_refl _) fun _ => ?_
  refine .stop (fun a ha => ha.imp_right fun hh => ?_) (fun t ht => ?_) rfl
  · show s.r 4 - 8 ≤ a
    have := h.sp
    omega
  · unfold Holds
    rw [ht.pc]
    exact hpost t

theorem sext_eq {z v : Nat} (hz : z ≤ 8) : leBytes 8 (sext z v) = X64.sext64 ((leBytes 8 v).take z) := by
  rw [X64.Asm.sext_take hz]
  rfl

theorem zext_eq {z v : Nat} (hz : z ≤ 8) : leBytes 8 (v % 2 ^ (8 * z)) = leBytes 8 (leNat ((leBytes 8 v).take z)) := by
  rw [leBytes_take _ hz, leNat_leBytes, Nat.pow_mul]

/-- After the dispatch. -/
theorem body_safe {s : St} {fl : Flag} {F a ra : Nat} {ss : List Nat} {g : Nat → Nat} {post : Nat → St → Prop}
    (hpc : s.pc = .at_ (ent c.cfg fl.code)) (h : At s lo F a ra ss g) (h8 : 8 ≤ s.r 4) (hlo : lo ≤ F) (hp : a + width fl ≤ lo ∨ F + 16 ≤ a)
    (hpost : ∀ m' v t, storeRet fl (retRegs s) a s.mem = .ok m' → v.r 4 = F + 16 → Saved v.r g → v.x = s.x → v.ss = ss → v.mem = m' →
      Agree (level lo (F + 16)) v t → post ra t)
    (habort : ∀ t, storeRet fl (retRegs s) a s.mem = .error .abort → post (c.ext 0) t) :
    Safe c lo (Holds c ra g (fun p => p = F + 16) post) (level lo F) s := by
  have hb := entry_block c.cfg fl
  have hr := entry_ret c.cfg fl
  have post' : ∀ m', storeRet fl (retRegs s) a s.mem = .ok m' → ∀ v t, v.r 4 = F + 16 → Saved v.r g → v.x = s.x → v.ss = ss → v.mem = m' →
      Agree (level lo (F + 16)) v t → post ra t := fun m' hm v t h1 h2 h3 h4 h5 h6 => hpost m' v t hm h1 h2 h3 h4 h5 h6
  have tk : ∀ z, z ≤ 8 → (retRegs s).xmm0.take z = (s.x 0).take z := fun z hz => by
    show ((s.x 0).take 8).take z = _
    rw [List.take_take, Nat.min_eq_left hz]
  have ext : ∀ (z : Nat) (sg : Bool), z ≤ 8 → leBytes 8 (if sg then sext z (s.r 0) else s.r 0 % 2 ^ (8 * z)) =
      if sg then X64.sext64 ((retRegs s).rax.take z) else leBytes 8 (leNat ((retRegs s).rax.take z)) := by
    intro z sg hz
    cases sg
    · exact zext_eq hz
    · exact sext_eq hz
  have st : ∀ z, z ≤ 8 → leBytes z (s.r 0) = (retRegs s).rax.take z := fun z hz => (leBytes_take _ hz).symm
  rcases fl with tc | _ | _ | _
  · cases tc
    case void => exact epilogue_safe hb (hr rfl) hpc h.sp h.fp h.ret h.rbp h.saved h.shadow (post' _ rfl)
    case struct => exact epilogue_safe hb (hr rfl) hpc h.sp h.fp h.ret h.rbp h.saved h.shadow (post' _ rfl)
    case int => exact ext_safe hb (hr rfl) hpc h hlo hp (by rw [ext 4 true (by decide)]; exact post' _ rfl)
    case sint32 => exact ext_safe hb (hr rfl) hpc h hlo hp (by rw [ext 4 true (by decide)]; exact post' _ rfl)
    case uint8 => exact ext_safe hb (hr rfl) hpc h hlo hp (by rw [ext 1 false (by decide)]; exact post' _ rfl)
    case uint16 => exact ext_safe hb (hr rfl) hpc h hlo hp (by rw [ext 2 false (by decide)]; exact post' _ rfl)
    case uint32 => exact ext_safe hb (hr rfl) hpc h hlo hp (by rw [ext 4 false (by decide)]; exact post' _ rfl)
    case sint8 => exact extj_safe hb hpc h hlo hp (by rw [ext 1 true (by decide)]; exact post' _ rfl)
    case sint16 => exact extj_safe hb hpc h hlo hp (by rw [ext 2 true (by decide)]; exact post' _ rfl)
    case longdouble => exact abort_safe hb hpc h h8 fun t => habort t rfl
    case complex => exact abort_safe hb hpc h h8 fun t => habort t rfl
    case float =>
      exact store_safe (z := 4) hb (hr rfl) hpc h rfl (by rw [List.length_take]; omega) (exec_stx h.res) hlo hp
        (by rw [← tk 4 (by decide)]; exact post' _ rfl)
    case double =>
      exact store_safe (z := 8) hb (hr rfl) hpc h rfl (by rw [List.length_take]; omega) (exec_stx h.res) hlo hp
        (by rw [← tk 8 (by decide)]; exact post' _ rfl)
    all_goals
      exact store_safe (z := 8) hb (hr rfl) hpc h rfl (by rw [leBytes_length]) (exec_st h.res) hlo hp
        (by rw [st 8 (by decide)]; exact post' _ rfl)
  · exact store_safe (z := 1) hb (hr rfl) hpc h rfl (by rw [leBytes_length]) (exec_st h.res) hlo hp
      (by rw [st 1 (by decide)]; exact post' _ rfl)
  · exact store_safe (z := 2) hb (hr rfl) hpc h rfl (by rw [leBytes_length]) (exec_st h.res) hlo hp
      (by rw [st 2 (by decide)]; exact post' _ rfl)
  · exact store_safe (z := 4) hb (hr rfl) hpc h rfl (by rw [leBytes_length]) (exec_st h.res) hlo hp
      (by rw [st 4 (by decide)]; exact post' _ rfl)

theorem code_le (fl : Flag) : fl.code ≤ 18 := by
  rcases fl with tc | _ | _ | _
  · cases tc <;> decide
  all_goals decide

/-- `ffi_call_win64` from the return of the function. -/
theorem call_exit {u : St} {fl : Flag} {F a ra : Nat} {ss : List Nat} {g : Nat → Nat} {post : Nat → St → Prop}
    (hpc : u.pc = .at_ (eo c.cfg + 65)) (h5 : u.r 5 = F) (h4 : u.r 4 ≤ F) (h8 : 8 ≤ u.r 4)
    (hm : leNat (u.mem.rd (F + 8) 8) = ra) (hb5 : leNat (u.mem.rd F 8) = g 5) (hg : Saved (upd u.r 5 (g 5)) g) (hss : u.ss = ra :: ss)
    (hfl : leNat (u.mem.rd (F + 24) 4) = fl.code) (ha : leNat (u.mem.rd (F + 32) 8) = a)
    (hlo : lo ≤ F) (hp : a + width fl ≤ lo ∨ F + 16 ≤ a)
    (hpost : ∀ m' v t, storeRet fl (retRegs u) a u.mem = .ok m' → v.r 4 = F + 16 → Saved v.r g → v.x = u.x → v.ss = ss → v.mem = m' →
      Agree (level lo (F + 16)) v t → post ra t)
    (habort : ∀ t, storeRet fl (retRegs u) a u.mem = .error .abort → post (c.ext 0) t) :
    Safe c lo (Holds c ra g (fun p => p = F + 16) post) (level lo F) u := by
  obtain ⟨pc, r, x, zf, cf, m, ss'⟩ := u
  dsimp only at hpc h5 h4 h8 hm hb5 hg hss hfl ha hpost habort
  have hle := code_le fl
  have hQ : ∀ {o : Nat} {r' : Nat → Nat} {zf cf : Bool} {pc' : Pc}, pc' = .at_ o → r' 5 = r 5 → Saved (upd r' 5 (g 5)) g →
      rows c.cfg o rowB = true → ∀ t, Agree (level lo F) ⟨pc', r', x, zf, cf, m, ss'⟩ t → Holds c ra g (fun p => p = F + 16) post t := by
    intro o r' zf cf pc' hpc h hs hr t ht
    refine holds_rbp ht hr hpc (fun a h1 h2 => .inr ?_) ?_ ?_ ?_ hs
    · have : r' 5 ≤ a := h1
      omega
    · dsimp only; rw [h, h5, hm]
    · dsimp only; rw [h, h5, hb5]
    · dsimp only; rw [h, h5]
  have hl : ∀ k, F ≤ r 5 + k := fun k => by omega
  refine lstep (exitBlock _) hpc h4 (hQ hpc rfl hg) (.inr (.inl (hl _))) rfl (Nat.le_refl _) fun b => ?_
  refine lstep b rfl h4 (hQ rfl rfl hg) (.inr (.inl (hl _))) rfl (Nat.le_refl _) fun b => ?_
  refine lstep b rfl h4 (hQ rfl rfl hg) (.inl rfl) rfl (Nat.le_refl _) fun b => ?_
  refine lstep b rfl h4 (hQ rfl rfl hg) (.inl rfl) rfl (Nat.le_refl _) fun b => ?_
  refine lstep b rfl h4 (hQ rfl rfl hg) (.inl rfl) rfl (Nat.le_refl _) fun b => ?_
  refine lstep b rfl h4 (hQ rfl rfl hg) (.inl rfl) rfl (Nat.le_refl _) fun b => ?_
  have hk : leNat (m.rd (r 5 + 24) 4) = fl.code := by rw [h5]; exact hfl
  have hstate : ∀ {D : Nat → Prop} {Q : St → Prop} {s' s'' : St}, s' = s'' → Safe c lo Q D s' → Safe c lo Q D s'' := fun h hs => h ▸ hs
  let R : Nat → Nat := upd (upd (upd (upd r 1 fl.code) 8 a) 10 (c.base + off c.cfg .table)) 10 (c.base + off c.cfg .table + fl.code * 8)
  refine hstate (s' := ⟨.at_ (eo c.cfg + 65 + 3 + 4 + 7 + 3 + 4 + 6), R, x, decide (fl.code % 2 ^ 32 = 18), decide (fl.code % 2 ^ 32 < 18), m, ss'⟩) ?_ ?_
  · have hk' : leNat (m.rd (F + 24) 4) = fl.code := hfl
    have e : ∀ (v w : Nat) (hv : v = fl.code) (hw : w = a), (⟨.at_ (eo c.cfg + 65 + 3 + 4 + 7 + 3 + 4 + 6), R, x, decide (fl.code % 2 ^ 32 = 18), decide (fl.code % 2 ^ 32 < 18), m, ss'⟩ : St) =
        ⟨if decide (v % 2 ^ 32 = 18) || decide (v % 2 ^ 32 < 18) then .at_ (eo c.cfg + 65 + 3 + 4 + 7 + 3 + 4 + 6) else .at_ (off c.cfg .l99),
          upd (upd (upd (upd r 1 v) 8 w) 10 (c.base + off c.cfg .table)) 10 (c.base + off c.cfg .table + v * 8), x, decide (v % 2 ^ 32 = 18),
          decide (v % 2 ^ 32 < 18), m, ss'⟩ := by
      rintro v w rfl rfl
      have : (decide (fl.code % 2 ^ 32 = 18) || decide (fl.code % 2 ^ 32 < 18)) = true := by
        rw [Bool.or_eq_true, decide_eq_true_eq, decide_eq_true_eq, Nat.mod_eq_of_lt (by omega)]
        omega
      rw [if_pos this]
    exact e (leNat (m.rd (r 5 + 24) 4)) (leNat (m.rd (r 5 + 32) 8)) hk (by rw [h5]; exact ha)
  refine lstep b rfl h4 (hQ rfl rfl hg) (.inl rfl) (s' := ⟨.at_ (ent c.cfg fl.code), R, x, decide (fl.code % 2 ^ 32 = 18), decide (fl.code % 2 ^ 32 < 18), m, ss'⟩)
    ?_ (Nat.le_refl _) fun _ => ?_
  · simp only [exec]
    have h10 : R 10 = c.base + off c.cfg .table + fl.code * 8 := rfl
    rw [h10, if_pos (by omega)]
    unfold ent
    rw [show c.base + off c.cfg .table + fl.code * 8 - c.base = off c.cfg .table + fl.code * 8 by omega]
  · exact body_safe rfl ⟨h4, h5, rfl, hm, hb5, hg, hss⟩ h8 hlo hp hpost habort

end Verif.Win64.Asm
