import Verif.Props.Delay
import Verif.Props.Content
import Verif.Props.Quarantine

/-! Random layout (C70): where the areas for the size classes begin, how long the guards around large blocks are and which
value the canaries have is decided by the random number generator. -/

namespace HM

/-! ### The areas of the size classes -/

/-- The choices `chs`, except that the bounded random numbers are given by `f`. -/
def redeal (f : Nat → Nat) (chs : Nat → Choice) : Nat → Choice := fun j => { chs j with u16 := f }

/-- No action of the program looks at these random numbers. -/
def Prog.Aloof {α : Type} : Prog α → Prop
  | .ret _ => True
  | .act f k => (∀ (ch : Choice) (u : Nat → Nat) σ tl, f { ch with u16 := u } σ tl = f ch σ tl) ∧ ∀ b, (k b).Aloof

/-- With the random numbers `u` a successful run ends in the same way, except that `F` is applied to the result. -/
def Prog.Moves {α : Type} (u : Nat → Nat) (F : α → α) (P : Prog α) : Prop :=
  ∀ chs σ tl σ' tl' a, P.run chs σ tl = .ok (σ', tl', a) → P.run (redeal u chs) σ tl = .ok (σ', tl', F a)

theorem Prog.Aloof.bind {α β : Type} {P : Prog α} {k : α → Prog β} (h1 : P.Aloof) (h2 : ∀ a, (k a).Aloof) : (P >>= k).Aloof := by
  induction P with
  | ret a => exact h2 a
  | act f k' ih => exact ⟨h1.1, fun b => ih b (h1.2 b)⟩

theorem Prog.Aloof.one {β : Type} {f : Choice → St → Tl → Res (St × Tl × β)} (h : ∀ (ch : Choice) (u : Nat → Nat) σ tl, f { ch with u16 := u } σ tl = f ch σ tl) :
    (Prog.one f).Aloof := ⟨h, fun _ => trivial⟩

theorem Prog.Moves.bind {α β : Type} {u : Nat → Nat} {F : β → β} {P : Prog α} {k : α → Prog β} (h1 : P.Aloof) (h2 : ∀ a, (k a).Moves u F) : (P >>= k).Moves u F := by
  induction P with
  | ret a => exact h2 a
  | act f k' ih =>
    intro chs σ tl σ' tl' a h
    show (Prog.act f fun b => (k' b).bind k).run _ _ _ = _
    unfold Prog.run
    have e : f (redeal u chs 0) σ tl = f (chs 0) σ tl := h1.1 _ _ _ _
    rw [e]
    change (Prog.act f fun b => (k' b).bind k).run _ _ _ = _ at h
    unfold Prog.run at h
    cases hf : f (chs 0) σ tl with
    | ok x => rw [hf] at h; exact ih _ (h1.2 _) _ _ _ _ _ _ h
    | fatal m => rw [hf] at h; cases h
    | segv => rw [hf] at h; cases h
    | ub m => rw [hf] at h; cases h
    | hang => rw [hf] at h; cases h

theorem Prog.Moves.die {α : Type} {u : Nat → Nat} {F : α → α} (m : String) : (die m : Prog α).Moves u F := by
  intro chs σ tl σ' tl' a h; cases h

theorem Prog.Aloof.sysMap (n : Nat) : (HM.sysMap n).Aloof := .one fun _ _ _ _ => rfl
theorem Prog.Aloof.sysProtect (p n : Nat) : (HM.sysProtect p n).Aloof := .one fun _ _ _ _ => rfl
theorem Prog.Aloof.sysUnmap (p n : Nat) : (HM.sysUnmap p n).Aloof := .one fun _ _ _ _ => rfl
theorem Prog.Aloof.sysPurge (p n : Nat) : (HM.sysPurge p n).Aloof := .one fun _ _ _ _ => rfl
theorem Prog.Aloof.setErrno (e : Errno) : (HM.setErrno e).Aloof := .one fun _ _ _ _ => rfl
theorem Prog.Aloof.drawMetaGuard (g : Cfg) : (HM.drawMetaGuard g).Aloof := .one fun _ _ _ _ => rfl

theorem Prog.Aloof.allocatePages (n gd : Nat) : (HM.allocatePages n gd).Aloof := by
  unfold HM.allocatePages
  split
  · exact .bind (.setErrno _) fun _ => trivial
  · refine .bind (.sysMap _) fun o => ?_
    cases o with
    | none => trivial
    | some x =>
      refine .bind (.sysProtect _ _) fun b => ?_
      split
      · exact .bind (.sysUnmap _ _) fun _ => trivial
      · trivial

theorem Prog.Aloof.reservePages (n gd : Nat) : (HM.reservePages n gd).Aloof := by
  unfold HM.reservePages
  split
  · exact .bind (.setErrno _) fun _ => trivial
  · refine .bind (.sysMap _) fun o => ?_
    cases o <;> trivial

theorem Prog.Aloof.deallocatePages (p n gd : Nat) : (HM.deallocatePages p n gd).Aloof := by
  unfold HM.deallocatePages
  refine .bind (.sysUnmap _ _) fun b => ?_
  split
  · exact .bind (.sysPurge _ _) fun _ => trivial
  · trivial

theorem Prog.Aloof.act {α β : Type} {l : Option Sect} {f : Choice → St → Tl → Res (St × Tl × β)} {k : β → Prog α} (h : (Prog.act (l := l) f k).Aloof) :
    (∀ (ch : Choice) (u : Nat → Nat) σ tl, f { ch with u16 := u } σ tl = f ch σ tl) ∧ ∀ b, (k b).Aloof := h

attribute [local irreducible] Prog.Aloof

theorem gaps_key {g : Cfg} {slab : Nat} {u : Nat → Nat} {P : Prog Unit} (hA : P.Aloof) (gap gap' : Nat → Nat → Nat) :
    ∀ chs σ tl σ' tl' ro, (P >>= fun _ => Prog.ret (⟨g, slab, gap⟩ : Ro)).run chs σ tl = .ok (σ', tl', ro) →
      (P >>= fun _ => Prog.ret (⟨g, slab, gap'⟩ : Ro)).run (redeal u chs) σ tl = .ok (σ', tl', ⟨g, slab, gap'⟩) ∧ (⟨g, slab, gap⟩ : Ro) = ro := by
  induction P with
  | ret a => intro chs σ tl σ' tl' ro h; cases h; exact ⟨rfl, rfl⟩
  | act f k' ih =>
    intro chs σ tl σ' tl' ro h
    change (Prog.act f fun b => (k' b).bind _).run _ _ _ = _ at h
    show (Prog.act f fun b => (k' b).bind _).run _ _ _ = _ ∧ _
    unfold Prog.run at h ⊢
    have e : f (redeal u chs 0) σ tl = f (chs 0) σ tl := hA.act.1 _ _ _ _
    rw [e]
    cases hf : f (chs 0) σ tl with
    | ok x => rw [hf] at h; exact ih _ (hA.act.2 _) _ _ _ _ _ _ h
    | fatal m => rw [hf] at h; cases h
    | segv => rw [hf] at h; cases h
    | ub m => rw [hf] at h; cases h
    | hang => rw [hf] at h; cases h

theorem gaps_moves {g : Cfg} {slab : Nat} {u : Nat → Nat} {P : Prog Unit} (hA : P.Aloof) :
    (drawGaps g >>= fun gap => P >>= fun _ => pure (⟨g, slab, gap⟩ : Ro)).Moves u fun ro => { ro with gap := fun a c => gapOf g (u (a * nClasses g + c)) } := by
  intro chs σ tl σ' tl' ro h
  obtain ⟨h1, rfl⟩ := gaps_key (u := u) hA _ (fun a c => gapOf g (u (a * nClasses g + c))) (fun n => chs (n + 1)) σ tl σ' tl' ro h
  exact h1

/-- An initialisation with other random numbers for the gaps. -/
theorem initSlowPath_moves (g : Cfg) (l : Layout) (u : Nat → Nat) :
    (initSlowPath g l).Moves u fun ro => { ro with gap := fun a c => gapOf g (u (a * nClasses g + c)) } := by
  unfold initSlowPath
  refine .bind (.allocatePages _ _) fun o => ?_
  cases o with
  | none => exact .die _
  | some rng =>
    refine .bind (.drawMetaGuard _) fun gd => .bind (.reservePages _ _) fun o => ?_
    cases o with
    | none => exact .die _
    | some st =>
      refine .bind (.sysProtect _ _) fun b => ?_
      split
      · exact .die _
      · refine .bind (.sysProtect _ _) fun b => ?_
        split
        · exact .die _
        · refine .bind (.sysMap _) fun o => ?_
          cases o with
          | none => exact .die _
          | some slab =>
            exact gaps_moves (Prog.Aloof.deallocatePages _ _ _)

theorem arena_class_inj {N a c : Nat} (hc : c < N) : (a * N + c) / N = a ∧ (a * N + c) % N = c := by
  rw [Nat.mul_comm, Nat.mul_add_div (by omega), Nat.mul_add_mod, Nat.div_eq_of_lt hc, Nat.mod_eq_of_lt hc]
  exact ⟨rfl, rfl⟩

/-- C70. Every initialisation divides the slab region among the arenas and size classes in equal parts, of twice the size of an area, and places the area of
class `c` of arena `a` a whole number of pages, from 1 to `classRegionSize / 4096 - 1`, after the start of its part. All
combinations of these distances are possible: for each there are random numbers with which this initialisation, under otherwise equal circumstances,
succeeds and leads to it. -/
theorem c70_areas {g : Cfg} {ro : Ro} {l : Layout} {chs : Nat → Choice} {σ : St} {tl tl' : Tl} (hv : g.Valid)
    (hi : (initSlowPath g l).run chs St.zero tl = .ok (σ, tl', ro)) :
    (∃ d : Nat → Nat → Nat, ∀ a c, 1 ≤ d a c ∧ d a c < g.classRegionSize / 4096 ∧
      ro.regionStart a c = ro.slabStart + (a * nClasses g + c) * (2 * g.classRegionSize) + d a c * 4096) ∧
    ∀ d : Nat → Nat → Nat, (∀ a c, 1 ≤ d a c ∧ d a c < g.classRegionSize / 4096) →
      ∃ (f : Nat → Nat) (ro' : Ro), (initSlowPath g l).run (redeal f chs) St.zero tl = .ok (σ, tl', ro') ∧ ro'.slabStart = ro.slabStart ∧
        ∀ a c, a < g.nArena → c < nClasses g →
          ro'.regionStart a c = ro.slabStart + (a * nClasses g + c) * (2 * g.classRegionSize) + d a c * 4096 := by
  have hp := Initialised.post ⟨l, chs, tl, tl', hi⟩
  obtain rfl := hp.cfg
  have h1 := hv.classRegionMin
  have hN : 2 ≤ ro.g.classRegionSize / 4096 := by omega
  have e0 : ro.g.realClassRegionSize - ro.g.classRegionSize = ro.g.classRegionSize := by unfold Cfg.realClassRegionSize; omega
  have e1 : ∀ a c, ro.g.realClassRegionSize * nClasses ro.g * a + ro.g.realClassRegionSize * c = (a * nClasses ro.g + c) * (2 * ro.g.classRegionSize) := fun a c => by
    unfold Cfg.realClassRegionSize; ring
  refine ⟨?_, fun d hd => ?_⟩
  · obtain ⟨d, hd⟩ := hp.gap
    refine ⟨fun a c => d a c % (ro.g.classRegionSize / 4096 - 1) + 1, fun a c => ?_⟩
    have h2 := Nat.mod_lt (d a c) (show ro.g.classRegionSize / 4096 - 1 > 0 by omega)
    refine ⟨Nat.le_add_left _ _, by show _ + 1 < _; omega, ?_⟩
    unfold Ro.regionStart Ro.arenaSize
    rw [hd, Nat.add_assoc ro.slabStart, e1]
    unfold gapOf
    rw [e0]
  · let f : Nat → Nat := fun k => d (k / nClasses ro.g) (k % nClasses ro.g) - 1
    refine ⟨f, _, initSlowPath_moves ro.g l f chs _ _ _ _ _ hi, rfl, fun a c ha hc => ?_⟩
    unfold Ro.regionStart Ro.arenaSize gapOf
    obtain ⟨e2, e3⟩ := arena_class_inj (a := a) hc
    obtain ⟨h1, h2⟩ := hd a c
    simp only [f, e2, e3]
    rw [Nat.add_assoc ro.slabStart, e1, e0, Nat.mod_eq_of_lt (by omega), Nat.sub_add_cancel h1]

/-! ### The guards of large blocks -/

theorem sysMap_none {n : Nat} {v : Nat} {σ : St} {tl : Tl} : (sysMap n).Ends v σ tl fun σ' _ o => σ'.rt = σ.rt ∧
    ∀ x, o = some x → ∀ pg, σ'.vm.prot pg ≠ .unmapped → σ.vm.prot pg ≠ .unmapped ∨ inPages x n pg := by
  refine Prog.Ends.act fun ch σ' tl' b _ hf => Prog.Ends.ret ?_
  split at hf <;> cases hf
  · rename_i h1
    refine ⟨rfl, fun x hx pg hp => ?_⟩
    cases hx
    unfold memoryMap at h1
    (repeat' split at h1) <;> cases h1
    by_cases h2 : inPages ch.addr n pg
    · exact Or.inr h2
    · left
      simpa [Vm.zeroPages, Vm.setProt, h2] using hp
  · exact ⟨rfl, fun x hx => by cases hx⟩

theorem sysProtect_mapped {p n : Nat} {v : Nat} {σ : St} {tl : Tl} : (sysProtect p n).Ends v σ tl fun σ' _ b => σ'.rt = σ.rt ∧
    (b = false → ∀ pg, σ'.vm.prot pg ≠ .unmapped → σ.vm.prot pg ≠ .unmapped ∨ inPages p n pg) := by
  refine Prog.Ends.act fun ch σ' tl' b _ hf => Prog.Ends.ret ?_
  split at hf <;> cases hf
  rename_i h1
  refine ⟨rfl, fun hb pg hp => ?_⟩
  by_cases h2 : inPages p n pg
  · exact Or.inr h2
  · left
    change memoryProtectRw σ.vm (ch.sys 0) p n = _ at h1
    unfold memoryProtectRw at h1
    split at h1
    · cases h1
    · split at h1
      · cases h1
      · cases h1; exact hp
      · split at h1
        · cases h1; simpa [Vm.setProt, h2] using hp
        · cases h1; exact hp

/-- What a large `malloc` leaves behind: a record of the block with its guards, and no other new mapping. -/
def LargeLeft (σ : St) (size guard : Nat) (σ' : St) (o : Option Nat) : Prop :=
  ∀ p, o = some p → (∃ i, σ'.rt.tab i = ⟨p, size, guard⟩) ∧
    ∀ pg, σ'.vm.prot pg ≠ .unmapped → σ.vm.prot pg ≠ .unmapped ∨ inPages (p - guard) (size + guard + guard) pg

theorem finishLarge_left {ro : Ro} {size guard v : Nat} {st : Bool} {o : Option Nat} {σ0 σ : St} {tl : Tl}
    (h : ∀ p, o = some p → ∀ pg, σ.vm.prot pg ≠ .unmapped → σ0.vm.prot pg ≠ .unmapped ∨ inPages (p - guard) (size + guard + guard) pg) :
    (finishLarge ro size guard st o).Ends v σ tl fun σ' _ o => LargeLeft σ0 size guard σ' o := by
  unfold finishLarge
  cases o with
  | none => exact Prog.Ends.ret fun p e => by cases e
  | some p =>
    refine Prog.Ends.bind (critical_ends fun ch σ1 e1 b _ hf tl1 => ?_)
    split at hf
    · cases hf
    · split at hf <;> cases hf
      · rename_i rt h1
        refine Prog.Ends.ret fun q e => ?_
        cases e
        refine ⟨?_, h p rfl⟩
        unfold regionsInsert at h1
        replace h1 : ∃ t' : Option RegTable, (match t' with
            | none => (Res.ok none : Res (Option RegTable))
            | some t => match tableInsert hashPage t.tab t.total ⟨p, size, guard⟩ with
              | none => .hang
              | some tab => .ok (some { t.setTab tab with free := t.free - 1 })) = .ok (some rt) := by
          simp only at h1
          split at h1 <;>
          · obtain ⟨t', _, h1⟩ := bind_ok h1
            exact ⟨t', h1⟩
        obtain ⟨t', h1⟩ := h1
        cases t' with
        | none => cases h1
        | some t1 =>
          simp only at h1
          split at h1 <;> cases h1
          rename_i tab h2
          unfold tableInsert at h2
          split at h2 <;> cases h2
          rename_i i _
          refine ⟨i, ?_⟩
          show (t1.setTab _).tab i = _
          rw [t1.setTab_tab, RTab.set_same]
      · simp only [Bool.false_eq_true, if_false]
        refine Prog.Ends.bind ?_
        exact fun _ _ _ _ _ => Prog.Ends.ret fun q e => by cases e

theorem allocateLarge_left {ro : Ro} {n v : Nat} {σ : St} {tl : Tl} :
    (allocateLarge ro n).Ends v σ tl fun σ' _ o => LargeLeft σ (getLargeSizeClass ro.g n)
      ((v % max 1 (getLargeSizeClass ro.g n / 4096 / ro.g.guardSizeDivisor) + 1) * 4096) σ' o := by
  unfold allocateLarge
  simp only
  generalize getLargeSizeClass ro.g n = size
  split
  · exact Prog.Ends.bind (Prog.Ends.act fun _ _ _ _ _ _ => Prog.Ends.ret (Prog.Ends.ret fun p e => by cases e))
  · refine Prog.Ends.bind (critical_ends fun ch σ1 e1 gd hv hf tl1 => ?_)
    unfold guardSize at hf
    rw [hv] at hf
    cases hf
    generalize (v % max 1 (size / 4096 / ro.g.guardSizeDivisor) + 1) * 4096 = gd
    refine Prog.Ends.bind ?_
    unfold allocatePages
    split
    · exact Prog.Ends.bind (Prog.Ends.act fun _ _ _ _ _ _ => Prog.Ends.ret (Prog.Ends.ret (finishLarge_left fun p e => by cases e)))
    · rename_i r hr
      obtain rfl := initAddGuards_some hr
      refine Prog.Ends.bind (sysMap_none.weaken fun σ1 tl1 o h1 => ?_)
      cases o with
      | none => exact Prog.Ends.ret (finishLarge_left fun p e => by cases e)
      | some x =>
        refine Prog.Ends.bind (sysProtect_mapped.weaken fun σ2 tl2 b h2 => ?_)
        cases b with
        | true => exact Prog.Ends.bind (sysCall_qr.weaken fun σ3 tl3 b h3 => Prog.Ends.ret (finishLarge_left fun p e => by cases e))
        | false =>
          refine Prog.Ends.ret (finishLarge_left fun p e pg hp => ?_)
          cases e
          rw [Nat.add_sub_cancel]
          rcases h2.2 rfl pg hp with h3 | h3
          · exact h1.2 x rfl pg h3
          · right
            unfold inPages at h3 ⊢
            have : x / PAGE ≤ (x + gd) / PAGE := Nat.div_le_div_right (by omega)
            have : (x + gd + size + 4095) / PAGE ≤ (x + (size + gd + gd) + 4095) / PAGE := Nat.div_le_div_right (by omega)
            omega

/-! ### Canaries -/

theorem mask_byte (v : BitVec 64) {j : Nat} (h1 : 1 ≤ j) (h8 : j < 8) :
    ((v &&& 0xffffffffffffff00#64) >>> (8 * j)).setWidth 8 = (v >>> (8 * j)).setWidth 8 := by
  have hm : ∀ n : Nat, n < 64 → 8 ≤ n → (0xffffffffffffff00#64).getLsbD n = true := by decide
  refine BitVec.eq_of_getLsbD_eq fun i hi => ?_
  simp only [BitVec.getLsbD_setWidth, BitVec.getLsbD_ushiftRight, BitVec.getLsbD_and]
  rw [hm (8 * j + i) (by omega) (by omega), Bool.and_true]

theorem statsAlloc_slabs (g : Cfg) (c : SC) (n m : Nat) : (((c.statsSlabAlloc g m).statsAlloc g n)).slabs = c.slabs := by
  unfold SC.statsAlloc SC.statsSlabAlloc
  (repeat' split) <;> rfl

theorem takeSlot_canary {g : Cfg} {slots : Nat} {ch : Choice} {c c' : SC} {m k i : Nat} (h : takeSlot g slots ch c m = .ok (k, c')) :
    (c'.slabs i).canary = (c.slabs i).canary := by
  unfold takeSlot at h
  split at h
  · split at h <;> cases h
  · cases h
    unfold SC.setUsed SC.upd
    simp only
    split
    · rename_i e; rw [e]
    · rfl

theorem setCanaryValue_drawn {g : Cfg} {ch : Choice} {c : SC} {m : Nat} (hcan : g.slabCanary = true) :
    ((c.setCanaryValue g ch m).slabs m).canary = canaryValue g ch.canary := by
  unfold SC.setCanaryValue SC.upd
  simp [hcan]

/-- A slab that is not accessible gets a new canary value when its first slot is handed out. -/
theorem allocateSmall_canary {g : Cfg} {base cls n : Nat} {ch : Choice} {c c1 : SC} {vm vm1 : Vm} {e e1 : Errno} {p : Nat} (hcan : g.slabCanary = true)
    (h1 : 1 ≤ g.slots cls) (h256 : g.slots cls ≤ 256) (h : allocateSmall g base cls n ch c vm e = .ok (some p, c1, vm1, e1)) :
    ∃ m k, k < g.slots cls ∧ p = slotAddr g base cls m k ∧
      (c.partialHead = some m ∨ c.emptyHead = some m ∨ (c1.slabs m).canary = canaryValue g ch.canary) := by
  unfold allocateSmall at h
  cases hp : c.partialHead with
  | some m =>
    simp only [hp] at h
    unfold allocFromPartial at h
    simp only [Res.bind_eq_ok, Prod.exists] at h
    obtain ⟨k, c3, h2, vm3, _, h3⟩ := h
    obtain ⟨hk, hu⟩ := takeSlot_range h1 h256 h2
    cases h3
    exact ⟨m, k, hk, rfl, Or.inl rfl⟩
  | none =>
    cases he : c.emptyHead with
    | some m =>
      simp only [hp, he] at h
      unfold allocFromEmpty at h
      simp only [Res.bind_eq_ok, Prod.exists] at h
      obtain ⟨k, c3, h2, vm3, _, h3⟩ := h
      obtain ⟨hk, hu⟩ := takeSlot_range h1 h256 h2
      cases h3
      exact ⟨m, k, hk, rfl, Or.inr (Or.inl rfl)⟩
    | none =>
      cases hf : c.freeHead with
      | some m =>
        simp only [hp, he, hf] at h
        unfold allocFromFree at h
        simp only [Res.bind_eq_ok, Prod.exists] at h
        obtain ⟨vm3, b, h2, h⟩ := h
        cases b with
        | true => simp at h
        | false =>
          simp only [Bool.false_eq_true, if_false, Res.bind_eq_ok, Prod.exists] at h
          obtain ⟨k, c3, h3, vm4, _, h5⟩ := h
          obtain ⟨hk, hu⟩ := takeSlot_range h1 h256 h3
          cases h5
          refine ⟨m, k, hk, rfl, Or.inr (Or.inr ?_)⟩
          rw [statsAlloc_slabs, takeSlot_canary h3, ← setCanaryValue_drawn (c := c) (m := m) hcan]
          unfold SC.takeFreeHead
          simp only [SC.upd, if_true]
          by_cases hx : ((SC.setCanaryValue g ch c m).slabs m).next = none <;> simp [hx]
      | none =>
        simp only [hp, he, hf] at h
        unfold allocFromNew at h
        simp only [Res.bind_eq_ok, Prod.exists] at h
        obtain ⟨mo, c3, vm3, e3, h2, h⟩ := h
        cases mo with
        | none => simp at h
        | some m =>
          simp only [Res.bind_eq_ok, Prod.exists] at h
          obtain ⟨k, c4, h3, vm4, _, h5⟩ := h
          obtain ⟨hk, hu⟩ := takeSlot_range h1 h256 h3
          cases h5
          refine ⟨m, k, hk, rfl, Or.inr (Or.inr ?_)⟩
          rw [statsAlloc_slabs, takeSlot_canary h3, ← setCanaryValue_drawn (c := c3) (m := m) hcan]

/-! ### Examples -/

/-- The initialisation of the example configuration; its areas can be placed anywhere. -/
example : (exCfg false false).Valid ∧ ∃ l chs tl tl', (initSlowPath (exCfg false false) l).run chs St.zero tl = .ok (exSt, tl', exRo false false) :=
  ⟨(exGood false false).valid, exInit false false⟩

end HM
