import Verif.GhostVm
import Verif.SmallFreeSpec
/-
Actions on one size class.
-/
namespace HM

variable {ro : Ro}

/-- Block `q` has the same holder, and if it is live it is unchanged. -/
structure KeepB (ro : Ro) (w w' : World) (q : Nat) : Prop where
  blk : w'.G.blk q = w.G.blk q
  small : ∀ a c i k, IsSmall ro w.σ q a c i k → IsSmall ro w'.σ q a c i k ∧
    ((w'.σ.sc a c).slabs i).canary = ((w.σ.sc a c).slabs i).canary ∧
    ∀ x, inRange q (ro.g.slotSize c) x → w'.σ.vm.mem x = w.σ.vm.mem x
  large : ∀ s g, w.σ.rt.Has ⟨q, s, g⟩ → w'.σ.rt.Has ⟨q, s, g⟩ ∧ w'.G.eff q = w.G.eff q ∧
    ∀ x, inRange q (pageUp (w.G.effSize ⟨q, s, g⟩)) x → w'.σ.vm.mem x = w.σ.vm.mem x

/-- The pages held by `t` are unchanged. -/
structure SameP (t : Nat) (w w' : World) : Prop where
  pages : ∀ pg, w'.G.own pg = .held t ↔ w.G.own pg = .held t
  prot : ∀ pg, w.G.own pg = .held t → w'.σ.vm.prot pg = w.σ.vm.prot pg
  mem : ∀ x, w.G.own (x / PAGE) = .held t → w'.σ.vm.mem x = w.σ.vm.mem x

theorem SameB.keep {h : Holder} {w w' : World} (s : SameB ro h w w') {q : Nat} (hq : w.G.blk q = h) : KeepB ro w w' q where
  blk := by rw [hq]; exact (s.blk q).mpr hq
  small := fun a c i k hs => s.small q a c i k hq hs
  large := fun z g hs => s.large ⟨q, z, g⟩ hq hs

theorem SameB.of_keep {h : Holder} {w w' : World} (A : Nat → Prop) (hk : ∀ q, ¬ A q → KeepB ro w w' q)
    (h1 : ∀ q, A q → w.G.blk q ≠ h ∧ w'.G.blk q ≠ h) : SameB ro h w w' where
  blk := fun q => by
    by_cases hA : A q
    · obtain ⟨a, b⟩ := h1 q hA
      exact ⟨fun e => absurd e b, fun e => absurd e a⟩
    · rw [(hk q hA).blk]
  small := fun q a c i k hq hs => by
    by_cases hA : A q
    · exact absurd hq (h1 q hA).1
    · exact (hk q hA).small a c i k hs
  large := fun r hq hs => by
    by_cases hA : A r.p
    · exact absurd hq (h1 _ hA).1
    · exact (hk _ hA).large r.size r.guard hs

theorem KeepB.refl (w : World) (q : Nat) : KeepB ro w w q :=
  ⟨rfl, fun _ _ _ _ h => ⟨h, rfl, fun _ _ => rfl⟩, fun _ _ h => ⟨h, rfl, fun _ _ => rfl⟩⟩

theorem KeepB.trans {w w' w'' : World} {q : Nat} (s : KeepB ro w w' q) (s' : KeepB ro w' w'' q) : KeepB ro w w'' q where
  blk := s'.blk.trans s.blk
  small := fun a c i k hs => by
    obtain ⟨h1, h2, h3⟩ := s.small a c i k hs
    obtain ⟨h1', h2', h3'⟩ := s'.small a c i k h1
    exact ⟨h1', h2'.trans h2, fun x hx => (h3' x hx).trans (h3 x hx)⟩
  large := fun z g hr => by
    obtain ⟨h1, h2, h3⟩ := s.large z g hr
    obtain ⟨h1', h2', h3'⟩ := s'.large z g h1
    refine ⟨h1', h2'.trans h2, fun x hx => (h3' x ?_).trans (h3 x hx)⟩
    have : w'.G.effSize ⟨q, z, g⟩ = w.G.effSize ⟨q, z, g⟩ := by unfold Gh.effSize; rw [h2]
    rw [this]; exact hx

theorem Same.of {h : Holder} {w w' : World} (b : SameB ro h w w') (p : ∀ t, h = .thr t → SameP t w w') : Same ro h w w' :=
  { b with
    pages := fun t e => (p t e).pages
    prot := fun t e => (p t e).prot
    mem := fun t e => (p t e).mem }

theorem Same.toSameP {t : Nat} {w w' : World} (s : Same ro (.thr t) w w') : SameP t w w' :=
  ⟨s.pages t rfl, s.prot t rfl, s.mem t rfl⟩

theorem SameP.refl (t : Nat) (w : World) : SameP t w w := ⟨fun _ => Iff.rfl, fun _ _ => rfl, fun _ _ => rfl⟩

theorem SameP.trans {t : Nat} {w w' w'' : World} (s : SameP t w w') (s' : SameP t w' w'') : SameP t w w'' where
  pages := fun pg => (s'.pages pg).trans (s.pages pg)
  prot := fun pg hp => (s'.prot pg ((s.pages pg).mpr hp)).trans (s.prot pg hp)
  mem := fun x hp => (s'.mem x ((s.pages _).mpr hp)).trans (s.mem x hp)

/-- The memory of the slabs of a class. -/
abbrev ClassMem (ro : Ro) (a c x : Nat) : Prop := inRange (ro.regionStart a c) (ro.g.metaMax c * ro.g.slabSize c) x

/-- A change of one class: `A` are the pointers affected. -/
structure ClassStep (ro : Ro) (a0 c0 : Nat) (w : World) (s' : SC) (vm' : Vm) (loc' : Nat → Loc) (ql' : Nat → Nat → QLoc)
    (blk' : Nat → Holder) (n : Nat) (A : Nat → Prop) : Prop where
  ha : a0 < ro.g.nArena
  hc : c0 < nClasses ro.g
  inv : ∃ P E F, SCInv ro.g (ro.regionStart a0 c0) c0 s' P E F loc' ql'
  scvm : SCVm ro.g (ro.regionStart a0 c0) c0 loc' vm'
  prot : ∀ pg, (∀ x, ClassMem ro a0 c0 x → x / PAGE ≠ pg) → vm'.prot pg = w.σ.vm.prot pg
  mem : ∀ x, ¬ ClassMem ro a0 c0 x → vm'.mem x = w.σ.vm.mem x
  cache : w.G.calm = true → s'.emptyTotal ≤ ro.g.maxEmptySlabsTotal
  slot : ∀ q, A q → ∃ i k, i < ro.g.metaMax c0 ∧ k < ro.g.slots c0 ∧ q = slotAddr ro.g (ro.regionStart a0 c0) c0 i k
  blk : ∀ q, ¬ A q → blk' q = w.G.blk q
  live : ∀ i k, i < ro.g.metaMax c0 → k < ro.g.slots c0 → A (slotAddr ro.g (ro.regionStart a0 c0) c0 i k) →
    (blk' (slotAddr ro.g (ro.regionStart a0 c0) c0 i k) ≠ .nobody ↔ s'.live i k = true)
  kept : ∀ i k, i < ro.g.metaMax c0 → k < ro.g.slots c0 → ¬ A (slotAddr ro.g (ro.regionStart a0 c0) c0 i k) →
    s'.live i k = (w.σ.sc a0 c0).live i k ∧ ((w.σ.sc a0 c0).live i k = true →
      (s'.slabs i).canary = ((w.σ.sc a0 c0).slabs i).canary ∧
      ∀ x, inRange (slotAddr ro.g (ro.regionStart a0 c0) c0 i k) (ro.g.slotSize c0) x → vm'.mem x = w.σ.vm.mem x)
  content : ClassContent ro.g (ro.regionStart a0 c0) c0 (w.σ.sc a0 c0) w.σ.vm →
    ClassContent ro.g (ro.regionStart a0 c0) c0 s' vm'
  stat : ro.g.stats = true → ClassStat ro.g c0 (w.σ.sc a0 c0) (w.G.loc a0 c0) (w.G.frees a0 c0) →
    ClassStat ro.g c0 s' loc' (w.G.frees a0 c0 + n)
  made : liveCount ro.g c0 (w.σ.sc a0 c0) ≤ liveCount ro.g c0 s' + n
  delay : ∀ i k, slotDelay ro.g c0 (w.σ.sc a0 c0) (w.G.ql a0 c0) i k ≤ slotDelay ro.g c0 s' ql' i k + n

/-- Replace the value at (a, c). -/
def set2 {β : Type} (f : Nat → Nat → β) (a c : Nat) (v : β) : Nat → Nat → β := fun a' c' => if a' = a ∧ c' = c then v else f a' c'

theorem set2_same {β : Type} (f : Nat → Nat → β) (a c : Nat) (v : β) : set2 f a c v a c = v := by simp [set2]

theorem set2_ne {β : Type} (f : Nat → Nat → β) {a c a' c' : Nat} (v : β) (h : ¬ (a' = a ∧ c' = c)) : set2 f a c v a' c' = f a' c' := by
  unfold set2; rw [if_neg h]

/-- The world after such a change. -/
def World.setClass (w : World) (a0 c0 : Nat) (s' : SC) (vm' : Vm) (loc' : Nat → Loc) (ql' : Nat → Nat → QLoc)
    (blk' : Nat → Holder) (n : Nat) : World :=
  ⟨{ w.σ with vm := vm', sc := set2 w.σ.sc a0 c0 s' },
   { w.G with loc := set2 w.G.loc a0 c0 loc', ql := set2 w.G.ql a0 c0 ql', blk := blk',
              frees := set2 w.G.frees a0 c0 (w.G.frees a0 c0 + n) }⟩

theorem setClass_frees {w : World} {a0 c0 : Nat} {s' : SC} {vm' : Vm} {loc' : Nat → Loc} {ql' : Nat → Nat → QLoc} {blk' : Nat → Holder} :
    (w.setClass a0 c0 s' vm' loc' ql' blk' 0).G.frees = w.G.frees := by
  funext a c
  show set2 w.G.frees a0 c0 (w.G.frees a0 c0 + 0) a c = _
  unfold set2
  split
  · next h => rw [h.1, h.2]; rfl
  · rfl

theorem classMem_region {a c x : Nat} (hc : c < nClasses ro.g) (hx : ClassMem ro a c x) :
    inRange (ro.regionStart a c) ro.g.classRegionSize x := by
  have := metaMax_le (g := ro.g) hc
  unfold ClassMem inRange at *; omega

theorem classMem_inj (hro : RoOk ro) {a c a' c' x : Nat} (ha : a < ro.g.nArena) (hc : c < nClasses ro.g)
    (ha' : a' < ro.g.nArena) (hc' : c' < nClasses ro.g) (hx : ClassMem ro a c x) (hx' : ClassMem ro a' c' x) : a = a' ∧ c = c' :=
  hro.cell_inj ha hc ha' hc' (hro.region_cell ha hc (classMem_region hc hx)) (hro.region_cell ha' hc' (classMem_region hc' hx'))

/-- Whole pages belong to a class. -/
theorem classMem_page (hro : RoOk ro) {a c x y : Nat} (ha : a < ro.g.nArena) (hc : c < nClasses ro.g)
    (hx : ClassMem ro a c x) (hy : y / PAGE = x / PAGE) : ClassMem ro a c y := by
  have h1 := (hro.base ha hc).mod
  have h2 := (classGeo ro.g hc).slab_mod
  have h3 : ro.g.metaMax c * ro.g.slabSize c % PAGE = 0 := by rw [Nat.mul_mod, h2]; simp
  unfold ClassMem inRange at *
  omega

theorem slot_classMem {a c i k x : Nat} (hc : c < nClasses ro.g) (hi : i < ro.g.metaMax c) (hk : k < ro.g.slots c)
    (hx : inRange (slotAddr ro.g (ro.regionStart a c) c i k) (ro.g.slotSize c) x) : ClassMem ro a c x :=
  slab_of_slab hc hi (slot_range_slab hc hk hx)

theorem slotAddr_classMem {a c i k : Nat} (hc : c < nClasses ro.g) (hi : i < ro.g.metaMax c) (hk : k < ro.g.slots c) :
    ClassMem ro a c (slotAddr ro.g (ro.regionStart a c) c i k) := by
  refine slot_classMem hc hi hk ?_
  have := (classGeo ro.g hc).size_ge
  unfold inRange; omega

/-- The class, slab and slot of a slot address are determined. -/
theorem slotAddr_unique (hro : RoOk ro) {a c i k a' c' i' k' : Nat} (ha : a < ro.g.nArena) (hc : c < nClasses ro.g)
    (ha' : a' < ro.g.nArena) (hc' : c' < nClasses ro.g) (hi : i < ro.g.metaMax c) (hk : k < ro.g.slots c)
    (hi' : i' < ro.g.metaMax c') (hk' : k' < ro.g.slots c')
    (h : slotAddr ro.g (ro.regionStart a c) c i k = slotAddr ro.g (ro.regionStart a' c') c' i' k') :
    a = a' ∧ c = c' ∧ i = i' ∧ k = k' := by
  have h1 := slotAddr_classMem (a := a) hc hi hk
  have h2 := slotAddr_classMem (a := a') hc' hi' hk'
  rw [← h] at h2
  obtain ⟨e1, e2⟩ := classMem_inj hro ha hc ha' hc' h1 h2
  subst e1 e2
  obtain ⟨e3, e4⟩ := slotAddr_inj hc hk hk' h
  exact ⟨rfl, rfl, e3, e4⟩

/-- A registered region is not at a slot address. -/
theorem GInv.has_not_slot {w : World} (hro : RoOk ro) (h : GInv ro w) {r : RegionMeta} (hr : w.σ.rt.Has r) {a c : Nat}
    (ha : a < ro.g.nArena) (hc : c < nClasses ro.g) : ¬ ClassMem ro a c r.p := by
  intro hx
  have h1 := h.class_own hro ha hc hx
  have R := h.reg r hr
  have hpos : 0 < w.G.effSize r := by
    unfold Gh.effSize
    cases e : w.G.eff r.p with
    | none => exact R.size
    | some n => obtain ⟨_, s, g, _, h0, _⟩ := h.eff r.p n e; exact h0
  have h2 := h.reg_body hr (pg := r.p / PAGE) (by unfold inPages; omega)
  rw [h1] at h2
  exact absurd h2 (by simp)

section
variable {t a0 c0 n : Nat} {w : World} {s' : SC} {vm' : Vm} {loc' : Nat → Loc} {ql' : Nat → Nat → QLoc} {blk' : Nat → Holder}
  {A : Nat → Prop}

theorem ClassStep.prot_off (hro : RoOk ro) (h : GInv ro w) (s : ClassStep ro a0 c0 w s' vm' loc' ql' blk' n A) {pg : Nat}
    (hp : w.G.own pg ≠ .slab) : vm'.prot pg = w.σ.vm.prot pg :=
  s.prot pg fun x hx e => hp (by rw [← e]; exact h.class_own hro s.ha s.hc hx)

theorem ClassStep.mem_off (hro : RoOk ro) (h : GInv ro w) (s : ClassStep ro a0 c0 w s' vm' loc' ql' blk' n A) {x : Nat}
    (hp : w.G.own (x / PAGE) ≠ .slab) : vm'.mem x = w.σ.vm.mem x :=
  s.mem x fun hx => hp (h.class_own hro s.ha s.hc hx)

/-- Every page of a class is mapped. -/
theorem SCVm.mapped {g : Cfg} {base cls : Nat} {loc : Nat → Loc} {vm : Vm} (hc : cls < nClasses g) (hvm : SCVm g base cls loc vm)
    {x : Nat} (hx : inRange base (g.metaMax cls * g.slabSize cls) x) : vm.prot (x / PAGE) ≠ .unmapped := by
  obtain ⟨i, hi, hx'⟩ := slab_cover hc hx
  by_cases hl : (loc i).isRw = true ∧ g.classSize cls ≠ 0
  · rw [hvm.rw i x hl.1 hl.2 hx']; simp
  · rw [(hvm.off i x hi hl hx').1]; simp

theorem ClassStep.isSmall_iff (hro : RoOk ro) (h : GInv ro w) (s : ClassStep ro a0 c0 w s' vm' loc' ql' blk' n A) {q a c i k : Nat}
    (hA : ¬ A q) : IsSmall ro (w.setClass a0 c0 s' vm' loc' ql' blk' n).σ q a c i k ↔ IsSmall ro w.σ q a c i k := by
  unfold IsSmall World.setClass
  simp only
  by_cases hac : a = a0 ∧ c = c0
  · obtain ⟨rfl, rfl⟩ := hac
    rw [set2_same]
    constructor
    · rintro ⟨ha, hc, hq, hl⟩
      refine ⟨ha, hc, hq, ?_⟩
      obtain ⟨P, E, F, hi⟩ := s.inv
      have hu : s'.used i k = true := by unfold SC.live at hl; simp only [Bool.and_eq_true] at hl; exact hl.1
      rw [← (s.kept i k (hi.rw_lt (isRw_not_fresh (used_isRw hi hu))) (hi.bits.used_lt hu) (by rw [← hq]; exact hA)).1]
      exact hl
    · rintro ⟨ha, hc, hq, hl⟩
      refine ⟨ha, hc, hq, ?_⟩
      obtain ⟨P, E, F, hi⟩ := h.cls a c ha hc
      have hu : (w.σ.sc a c).used i k = true := by unfold SC.live at hl; simp only [Bool.and_eq_true] at hl; exact hl.1
      rw [(s.kept i k (hi.rw_lt (isRw_not_fresh (used_isRw hi hu))) (hi.bits.used_lt hu) (by rw [← hq]; exact hA)).1]
      exact hl
  · rw [set2_ne _ _ hac]

theorem ClassStep.ginv (hro : RoOk ro) (h : GInv ro w) (s : ClassStep ro a0 c0 w s' vm' loc' ql' blk' n A) :
    GInv ro (w.setClass a0 c0 s' vm' loc' ql' blk' n) where
  cls := fun a c ha hc => by
    unfold World.setClass
    by_cases hac : a = a0 ∧ c = c0
    · obtain ⟨rfl, rfl⟩ := hac
      simp only [set2_same]; exact s.inv
    · simp only [set2_ne _ _ hac]; exact h.cls a c ha hc
  clsVm := fun a c ha hc => by
    unfold World.setClass
    by_cases hac : a = a0 ∧ c = c0
    · obtain ⟨rfl, rfl⟩ := hac
      simp only [set2_same]; exact s.scvm
    · simp only [set2_ne _ _ hac]
      obtain ⟨P, E, F, hi⟩ := h.cls a c ha hc
      refine SCVm.congrVm hc hi (h.clsVm a c ha hc) (fun x hx => ?_) (fun x hx _ => ?_)
      · refine s.prot _ fun y hy e => hac ?_
        exact classMem_inj hro ha hc s.ha s.hc hx (classMem_page hro s.ha s.hc hy e.symm)
      · exact s.mem x fun hx' => hac (classMem_inj hro ha hc s.ha s.hc hx hx')
  gaps := fun pg hpg hx => by
    rw [← h.gaps pg hpg hx]
    exact s.prot pg fun x hx' => hx a0 c0 x s.ha s.hc hx'
  rt := h.rt
  reg := h.reg
  slabOwn := h.slabOwn
  regOwn := h.regOwn
  regRw := fun r pg hr hx => by
    have e := h.reg_body hr hx
    rw [← h.regRw r pg hr hx]
    exact s.prot_off hro h (by rw [e]; simp)
  regLo := fun r pg hr hx => by
    have e := h.reg_lo hr hx
    rw [← h.regLo r pg hr hx]
    exact s.prot_off hro h (by rw [e]; simp)
  regHi := fun r pg hr hx => by
    have e := h.reg_hi hr hx
    rw [← h.regHi r pg hr hx]
    exact s.prot_off hro h (by rw [e]; simp)
  qrOwn := h.qrOwn
  qqOwn := h.qqOwn
  qrOk := h.qrOk
  qqOk := h.qqOk
  qi := h.qi
  mapped := fun pg hpg => by
    by_cases hx : ∃ x, ClassMem ro a0 c0 x ∧ x / PAGE = pg
    · obtain ⟨x, hx, rfl⟩ := hx
      exact s.scvm.mapped s.hc hx
    · show vm'.prot pg ≠ _
      rw [s.prot pg fun x hx' e => hx ⟨x, hx', e⟩]
      exact h.mapped pg hpg
  qprot := fun hc pg i ho => by
    show vm'.prot pg ≠ _
    rw [s.prot_off hro h (by rcases ho with e | e <;> rw [show w.G.own pg = _ from e] <;> simp)]
    exact h.qprot hc pg i ho
  blk := fun q => by
    by_cases hA : A q
    · obtain ⟨i, k, hi, hk, rfl⟩ := s.slot q hA
      have hl := s.live i k hi hk hA
      show blk' _ ≠ _ ↔ _
      rw [hl]
      constructor
      · intro hl
        refine Or.inl ⟨a0, c0, i, k, s.ha, s.hc, rfl, ?_⟩
        unfold World.setClass; simp only [set2_same]; exact hl
      · rintro (⟨a, c, i', k', ha, hc, hq, hl⟩ | ⟨z, g, hr⟩)
        · by_cases hac : a = a0 ∧ c = c0
          · obtain ⟨rfl, rfl⟩ := hac
            unfold World.setClass at hl; simp only [set2_same] at hl
            obtain ⟨P, E, F, hi0⟩ := s.inv
            have hu : s'.used i' k' = true := by unfold SC.live at hl; simp only [Bool.and_eq_true] at hl; exact hl.1
            obtain ⟨e1, e2⟩ := slotAddr_inj hc hk (hi0.bits.used_lt hu) hq
            rw [e1, e2]; exact hl
          · exfalso
            unfold World.setClass at hl; simp only [set2_ne _ _ hac] at hl
            obtain ⟨hi', hk', _⟩ := IsSmall.lt h (show IsSmall ro w.σ _ a c i' k' from ⟨ha, hc, rfl, hl⟩)
            obtain ⟨e1, e2, _⟩ := slotAddr_unique hro s.ha s.hc ha hc hi hk hi' hk' hq
            exact hac ⟨e1.symm, e2.symm⟩
        · exact absurd (slotAddr_classMem s.hc hi hk) (h.has_not_slot hro hr s.ha s.hc)
    · show blk' q ≠ _ ↔ _
      rw [s.blk q hA, h.blk q]
      refine or_congr ?_ Iff.rfl
      constructor
      · rintro ⟨a, c, i, k, hs⟩
        exact ⟨a, c, i, k, (s.isSmall_iff hro h hA).mpr hs⟩
      · rintro ⟨a, c, i, k, hs⟩
        exact ⟨a, c, i, k, (s.isSmall_iff hro h hA).mp hs⟩
  eff := fun q m e => by
    obtain ⟨⟨t', ht'⟩, z, g, hr, rest⟩ := h.eff q m e
    refine ⟨⟨t', ?_⟩, z, g, hr, rest⟩
    show blk' q = _
    rw [s.blk q, ht']
    intro hA
    obtain ⟨i, k, hi, hk, e⟩ := s.slot q hA
    have := slotAddr_classMem (a := a0) s.hc hi hk
    rw [← e] at this
    exact h.has_not_slot hro hr s.ha s.hc this
  cache := fun hcalm a c ha hc => by
    unfold World.setClass
    by_cases hac : a = a0 ∧ c = c0
    · obtain ⟨rfl, rfl⟩ := hac
      simp only [set2_same]; exact s.cache hcalm
    · simp only [set2_ne _ _ hac]; exact h.cache hcalm a c ha hc

theorem ClassStep.keep (hro : RoOk ro) (h : GInv ro w) (s : ClassStep ro a0 c0 w s' vm' loc' ql' blk' n A) {q : Nat} (hA : ¬ A q) :
    KeepB ro w (w.setClass a0 c0 s' vm' loc' ql' blk' n) q where
  blk := s.blk q hA
  small := fun a c i k hs => by
    refine ⟨(s.isSmall_iff hro h hA).mpr hs, ?_⟩
    obtain ⟨hi, hk, _⟩ := hs.lt h
    obtain ⟨ha, hc, hq, hl⟩ := hs
    by_cases hac : a = a0 ∧ c = c0
    · obtain ⟨rfl, rfl⟩ := hac
      unfold World.setClass; simp only [set2_same]
      rw [hq] at hA ⊢
      exact (s.kept i k hi hk hA).2 hl
    · unfold World.setClass; simp only [set2_ne _ _ hac]
      refine ⟨trivial, fun x hx => s.mem x fun hx' => hac ?_⟩
      rw [hq] at hx
      exact classMem_inj hro ha hc s.ha s.hc (slot_classMem hc hi hk hx) hx'
  large := fun z g hr => ⟨hr, rfl, fun x hx => by
    refine s.mem_off hro h ?_
    rw [h.reg_body hr (inPages_of_pageUp (h.reg _ hr).pmod hx)]; simp⟩

theorem ClassStep.sameP (hro : RoOk ro) (h : GInv ro w) (s : ClassStep ro a0 c0 w s' vm' loc' ql' blk' n A) (t' : Nat) :
    SameP t' w (w.setClass a0 c0 s' vm' loc' ql' blk' n) where
  pages := fun _ => Iff.rfl
  prot := fun pg e => s.prot_off hro h (by rw [e]; simp)
  mem := fun x e => s.mem_off hro h (by rw [e]; simp)

theorem ClassStep.trans (hro : RoOk ro) (h : GInv ro w) (s : ClassStep ro a0 c0 w s' vm' loc' ql' blk' n A) {hs : Holder → Prop}
    (hA : ∀ q o, A q → hs o → o ≠ .nobody → w.G.blk q ≠ o ∧ blk' q ≠ o) :
    Trans ro hs w (w.setClass a0 c0 s' vm' loc' ql' blk' n) where
  inv := s.ginv hro h
  same := fun o ho hso => Same.of (SameB.of_keep A (fun q hq => s.keep hro h hq) fun q hq => hA q o hq hso ho)
    fun t' _ => s.sameP hro h t'
  content := fun hcont a c ha hc => by
    unfold World.setClass
    by_cases hac : a = a0 ∧ c = c0
    · obtain ⟨rfl, rfl⟩ := hac
      simp only [set2_same]; exact s.content (hcont a c ha hc)
    · simp only [set2_ne _ _ hac]
      intro i k hi hk hz
      obtain ⟨h1, h2⟩ := hcont a c ha hc i k hi hk hz
      have hm : ∀ x, inRange (slotAddr ro.g (ro.regionStart a c) c i k) (ro.g.slotSize c) x → vm'.mem x = w.σ.vm.mem x :=
        fun x hx => s.mem x fun hx' => hac (classMem_inj hro ha hc s.ha s.hc (slot_classMem hc hi hk hx) hx')
      have h3 := (classGeo ro.g hc).size_ge
      refine ⟨fun hl hf x hx => ?_, fun hl hcn => ?_⟩
      · rw [hm x (by unfold inRange at *; omega)]; exact h1 hl hf x hx
      · exact (h2 hl hcn).congr fun j hj => hm _ (by unfold inRange; omega)
  stat := fun hst => by
    refine ⟨fun h0 a c ha hc => ?_, hst.large⟩
    unfold World.setClass
    by_cases hac : a = a0 ∧ c = c0
    · obtain ⟨rfl, rfl⟩ := hac
      simp only [set2_same]; exact s.stat h0 (hst.small h0 a c ha hc)
    · simp only [set2_ne _ _ hac]; exact hst.small h0 a c ha hc
  delay := {
    frees := fun a c => by
      unfold World.setClass set2; simp only
      split
      · next e => rw [e.1, e.2]; omega
      · exact Nat.le_refl _
    made := fun a c _ _ => by
      unfold World.setClass
      by_cases hac : a = a0 ∧ c = c0
      · obtain ⟨rfl, rfl⟩ := hac
        simp only [set2_same]
        have := s.made
        omega
      · simp only [set2_ne _ _ hac]; omega
    slot := fun a c ha hc i k => by
      unfold World.setClass
      by_cases hac : a = a0 ∧ c = c0
      · obtain ⟨rfl, rfl⟩ := hac
        simp only [set2_same]
        have := s.delay i k
        omega
      · simp only [set2_ne _ _ hac]; omega
    pushes := Nat.le_refl _
    page := fun pg => Nat.le_add_right _ _
    env := rfl }

end

end HM
