import Verif.GhostSmall
/-
Actions on the table of large allocations, on the region quarantine, and writes into blocks.
-/
namespace HM

variable {ro : Ro}

theorem RegTable.mem_regs (t : RegTable) (r : RegionMeta) : r ∈ t.regs ↔ t.Has r := by
  unfold RegTable.regs RegTable.Has HM.Has
  simp only [Finset.mem_filter, Finset.mem_image, Finset.mem_range]
  exact and_comm

theorem RegTable.Inv.unique {hash : Nat → Nat} {t : RegTable} (h : t.Inv hash) {r r' : RegionMeta} (hr : t.Has r) (hr' : t.Has r')
    (e : r.p = r'.p) : r = r' := by
  obtain ⟨h0, i, hi, rfl⟩ := hr
  obtain ⟨h0', j, hj, rfl⟩ := hr'
  rw [h.tab.distinct i j hi hj h0 e]

theorem GInv.has_unique {w : World} (h : GInv ro w) {r r' : RegionMeta} (hr : w.σ.rt.Has r) (hr' : w.σ.rt.Has r') (e : r.p = r'.p) :
    r = r' := h.rt.unique hr hr' e

/-- A change outside of the slab region. -/
structure LStep (w w' : World) : Prop where
  sc : w'.σ.sc = w.σ.sc
  loc : w'.G.loc = w.G.loc
  ql : w'.G.ql = w.G.ql
  frees : w'.G.frees = w.G.frees
  env : w'.G.env = w.G.env
  slab : ∀ pg, w'.G.own pg = .slab ↔ w.G.own pg = .slab
  prot : ∀ pg, w.G.own pg = .slab → w'.σ.vm.prot pg = w.σ.vm.prot pg
  mem : ∀ x, w.G.own (x / PAGE) = .slab → w'.σ.vm.mem x = w.σ.vm.mem x

section
variable {w w' : World}

theorem LStep.isSmall (s : LStep w w') (p a c i k : Nat) : IsSmall ro w'.σ p a c i k ↔ IsSmall ro w.σ p a c i k := by
  unfold IsSmall; rw [s.sc]

theorem LStep.clsVm (s : LStep w w') (hro : RoOk ro) (h : GInv ro w) (a c : Nat) (ha : a < ro.g.nArena) (hc : c < nClasses ro.g) :
    SCVm ro.g (ro.regionStart a c) c (w'.G.loc a c) w'.σ.vm := by
  obtain ⟨P, E, F, hi⟩ := h.cls a c ha hc
  rw [s.loc]
  exact SCVm.congrVm hc hi (h.clsVm a c ha hc) (fun x hx => s.prot _ (h.class_own hro ha hc hx))
    (fun x hx _ => s.mem _ (h.class_own hro ha hc hx))

theorem LStep.gaps (s : LStep w w') (h : GInv ro w) (pg : Nat) (hp : w'.G.own pg = .slab) (hx : ∀ a c x, a < ro.g.nArena → c < nClasses ro.g →
    inRange (ro.regionStart a c) (ro.g.metaMax c * ro.g.slabSize c) x → x / PAGE ≠ pg) : w'.σ.vm.prot pg = .none := by
  have hp := (s.slab pg).mp hp
  rw [s.prot pg hp]; exact h.gaps pg hp hx

theorem LStep.content (s : LStep w w') (hro : RoOk ro) (h : GInv ro w) (hc : Content ro w) : Content ro w' := by
  refine Content.congr (fun _ _ _ _ _ _ => by rw [s.sc]) (fun _ _ _ _ _ _ _ => by rw [s.sc]) (fun a c i k x ha hc hi hk hx _ => ?_) hc
  exact s.mem x (h.class_own hro ha hc (slot_classMem hc hi hk hx))

theorem LStep.statSmall (s : LStep w w') (h : StatOk ro w) (h0 : ro.g.stats = true) (a c : Nat) (ha : a < ro.g.nArena)
    (hc : c < nClasses ro.g) : ClassStat ro.g c (w'.σ.sc a c) (w'.G.loc a c) (w'.G.frees a c) := by
  rw [s.sc, s.loc, s.frees]; exact h.small h0 a c ha hc

theorem LStep.delay (s : LStep w w') (hp : w.G.pushes ≤ w'.G.pushes)
    (hd : ∀ pg, pageDelay ro.g w pg ≤ pageDelay ro.g w' pg + (w'.G.pushes - w.G.pushes)) : Delay ro w w' where
  frees := fun a c => by rw [s.frees]
  made := fun a c _ _ => by rw [s.frees, s.sc]
  slot := fun a c _ _ i k => by rw [s.sc, s.ql]; omega
  pushes := hp
  page := hd
  env := s.env

/-- Small blocks are kept. -/
theorem LStep.keepSmall (s : LStep w w') (hro : RoOk ro) (h : GInv ro w) {q a c i k : Nat} (hs : IsSmall ro w.σ q a c i k) :
    IsSmall ro w'.σ q a c i k ∧ ((w'.σ.sc a c).slabs i).canary = ((w.σ.sc a c).slabs i).canary ∧
    ∀ x, inRange q (ro.g.slotSize c) x → w'.σ.vm.mem x = w.σ.vm.mem x :=
  ⟨(s.isSmall q a c i k).mpr hs, by rw [s.sc], fun x hx => s.mem x (hs.own hro h hx)⟩

theorem LStep.cache (s : LStep w w') (h : GInv ro w) (hcalm : w'.G.calm = true) (a c : Nat) (ha : a < ro.g.nArena) (hc : c < nClasses ro.g) :
    (w'.σ.sc a c).emptyTotal ≤ ro.g.maxEmptySlabsTotal := by
  rw [s.sc]; rw [Gh.calm, s.env] at hcalm; exact h.cache hcalm a c ha hc

end

/-! ### Recording a region -/

/-- The pages of a region with its guards. -/
abbrev RegPages (p size guard pg : Nat) : Prop := inPages (p - guard) (pageUp size + 2 * guard) pg

/-- Thread `t` holds a mapping laid out as a region. -/
structure HeldRegion (t p size guard : Nat) (w : World) : Prop where
  ok : RegOk ⟨p, size, guard⟩
  own : ∀ pg, RegPages p size guard pg → w.G.own pg = .held t
  rw : ∀ pg, inPages p size pg → w.σ.vm.prot pg = .rw
  lo : ∀ pg, inPages (p - guard) guard pg → w.σ.vm.prot pg = .none
  hi : ∀ pg, inPages (p + pageUp size) guard pg → w.σ.vm.prot pg = .none

/-- The world after recording region `r`. -/
def World.insertReg (w : World) (t : Nat) (rt' : RegTable) (r : RegionMeta) (la un : Nat) : World :=
  ⟨{ w.σ with rt := rt', largeAllocated := la },
   { w.G with own := fun pg => if RegPages r.p r.size r.guard pg then .reg r.p else w.G.own pg,
              blk := setBlk w.G.blk r.p (.thr t), untracked := un }⟩

theorem RegOk.ne0 {r : RegionMeta} (h : RegOk r) : r.p ≠ 0 := by have := h.lo; omega

theorem RegOk.page {r : RegionMeta} (h : RegOk r) : inPages r.p r.size (r.p / PAGE) := by
  have := h.size; have := h.pmod; unfold inPages; omega

section
variable {w : World} {t p size guard : Nat}

theorem HeldRegion.not_has (h : GInv ro w) (H : HeldRegion t p size guard w) (q : RegionMeta) (hq : w.σ.rt.Has q) : q.p ≠ p := by
  intro e
  have R := h.reg q hq
  have hpos : 0 < w.G.effSize q := by
    unfold Gh.effSize
    cases e : w.G.eff q.p with
    | none => exact R.size
    | some n => obtain ⟨_, s, g, _, h0, _⟩ := h.eff q.p n e; exact h0
  have h1 := h.reg_body hq (pg := q.p / PAGE) (by unfold inPages; omega)
  have h2 := H.own (p / PAGE) (inPages_body H.ok.pmod H.ok.gmod (by have := H.ok.lo; simp only at this; omega) H.ok.page)
  rw [e, h2] at h1
  exact absurd h1 (by simp)

theorem HeldRegion.blk (hro : RoOk ro) (h : GInv ro w) (H : HeldRegion t p size guard w) : w.G.blk p = .nobody := by
  by_contra hb
  rcases (h.blk p).mp hb with ⟨a, c, i, k, hs⟩ | ⟨s, g, hr⟩
  · have h1 := hs.own hro h (x := p) (by have := (classGeo ro.g hs.2.1).size_ge; unfold inRange; omega)
    have h2 := H.own (p / PAGE) (inPages_body H.ok.pmod H.ok.gmod (by have := H.ok.lo; simp only at this; omega) H.ok.page)
    rw [h1] at h2; exact absurd h2 (by simp)
  · exact H.not_has h _ hr rfl

theorem HeldRegion.eff (h : GInv ro w) (H : HeldRegion t p size guard w) : w.G.eff p = none := by
  cases e : w.G.eff p with
  | none => rfl
  | some n =>
    obtain ⟨_, s, g, hr, _⟩ := h.eff p n e
    exact absurd rfl (H.not_has h _ hr)

theorem insertReg_lstep (H : HeldRegion t p size guard w) {rt' : RegTable} {la un : Nat} :
    LStep w (w.insertReg t rt' ⟨p, size, guard⟩ la un) := by
  refine ⟨rfl, rfl, rfl, rfl, rfl, fun pg => ?_, fun _ _ => rfl, fun _ _ => rfl⟩
  unfold World.insertReg
  simp only
  by_cases e : RegPages p size guard pg
  · rw [if_pos e, H.own pg e]; simp
  · rw [if_neg e]

theorem insertReg_ginv (hro : RoOk ro) (h : GInv ro w) (H : HeldRegion t p size guard w) {rt' : RegTable} {la un : Nat}
    (hinv : rt'.Inv hashPage) (hhas : ∀ q, rt'.Has q ↔ w.σ.rt.Has q ∨ q = ⟨p, size, guard⟩) :
    GInv ro (w.insertReg t rt' ⟨p, size, guard⟩ la un) := by
  have L := insertReg_lstep H (rt' := rt') (la := la) (un := un)
  have heff := H.eff h
  have hes : w.G.effSize ⟨p, size, guard⟩ = size := by unfold Gh.effSize; simp only; rw [heff]; rfl
  have howne : ∀ pg o, o ≠ .held t → o ≠ .reg p →
      ((w.insertReg t rt' ⟨p, size, guard⟩ la un).G.own pg = o ↔ w.G.own pg = o) := by
    intro pg o h1 h2
    unfold World.insertReg
    simp only
    by_cases e : RegPages p size guard pg
    · rw [if_pos e, H.own pg e]
      exact ⟨fun e => absurd e.symm h2, fun e => absurd e.symm h1⟩
    · rw [if_neg e]
  refine ⟨h.cls, L.clsVm hro h, L.gaps h, hinv, fun r hr => ?_, fun pg => (L.slab pg).trans (h.slabOwn pg), fun pg q => ?_,
    fun r pg hr hx => ?_, fun r pg hr hx => ?_, fun r pg hr hx => ?_, fun pg i => ?_, fun pg i => ?_, h.qrOk, h.qqOk, h.qi,
    fun pg hpg => ?_, fun q => ?_, fun q n e => ?_, h.cache,
    fun hc pg i ho => h.qprot hc pg i (ho.imp (howne pg _ (by simp) (by simp)).mp (howne pg _ (by simp) (by simp)).mp)⟩
  · rcases (hhas r).mp hr with hr | rfl
    · exact h.reg r hr
    · exact H.ok
  · -- regOwn
    by_cases hq : q = p
    · subst hq
      constructor
      · intro e
        refine ⟨⟨q, size, guard⟩, (hhas _).mpr (Or.inr rfl), rfl, ?_⟩
        show inPages (q - guard) (pageUp (w.G.effSize ⟨q, size, guard⟩) + 2 * guard) pg
        rw [hes]
        by_contra hn
        unfold World.insertReg at e
        simp only at e
        rw [if_neg hn] at e
        obtain ⟨r, hr, e', _⟩ := (h.regOwn pg q).mp e
        exact H.not_has h r hr e'
      · rintro ⟨r, hr, e', hx⟩
        have : r = ⟨q, size, guard⟩ := by
          rcases (hhas r).mp hr with hr | hr
          · exact absurd e' (H.not_has h r hr)
          · exact hr
        subst this
        change inPages (q - guard) (pageUp (w.G.effSize ⟨q, size, guard⟩) + 2 * guard) pg at hx
        rw [hes] at hx
        show (if RegPages q size guard pg then _ else _) = _
        rw [if_pos hx]
    · rw [howne pg _ (by simp) (by simpa using hq), h.regOwn]
      constructor
      · rintro ⟨r, hr, e, hx⟩
        exact ⟨r, (hhas r).mpr (Or.inl hr), e, hx⟩
      · rintro ⟨r, hr, e, hx⟩
        rcases (hhas r).mp hr with hr | rfl
        · exact ⟨r, hr, e, hx⟩
        · exact absurd e.symm hq
  · rcases (hhas r).mp hr with hr | rfl
    · exact h.regRw r pg hr hx
    · change inPages p (w.G.effSize ⟨p, size, guard⟩) pg at hx
      rw [hes] at hx; exact H.rw pg hx
  · rcases (hhas r).mp hr with hr | rfl
    · exact h.regLo r pg hr hx
    · exact H.lo pg hx
  · rcases (hhas r).mp hr with hr | rfl
    · exact h.regHi r pg hr hx
    · change inPages (p + pageUp (w.G.effSize ⟨p, size, guard⟩)) guard pg at hx
      rw [hes] at hx; exact H.hi pg hx
  · exact (howne pg _ (by simp) (by simp)).trans (h.qrOwn pg i)
  · exact (howne pg _ (by simp) (by simp)).trans (h.qqOwn pg i)
  · by_cases e : RegPages p size guard pg
    · exact h.mapped pg (by rw [H.own pg e]; simp)
    · unfold World.insertReg at hpg; simp only at hpg; rw [if_neg e] at hpg; exact h.mapped pg hpg
  · by_cases hq : q = p
    · subst hq
      show setBlk _ _ _ q ≠ _ ↔ _
      rw [setBlk_same]
      refine ⟨fun _ => Or.inr ⟨size, guard, (hhas _).mpr (Or.inr rfl)⟩, fun _ => by simp⟩
    · show setBlk _ _ _ q ≠ _ ↔ _
      rw [setBlk_ne _ _ hq, h.blk]
      refine or_congr Iff.rfl (exists_congr fun s => exists_congr fun g => ?_)
      show _ ↔ rt'.Has _
      rw [hhas]
      refine ⟨Or.inl, ?_⟩
      rintro (e | e)
      · exact e
      · simp only [RegionMeta.mk.injEq] at e; exact absurd e.1 hq
  · obtain ⟨⟨t', ht'⟩, s, g, hr, rest⟩ := h.eff q n e
    refine ⟨⟨t', ?_⟩, s, g, (hhas _).mpr (Or.inl hr), rest⟩
    show setBlk _ _ _ q = _
    rw [setBlk_ne _ _ (H.not_has h _ hr)]; exact ht'

theorem insertReg_keep (hro : RoOk ro) (h : GInv ro w) (H : HeldRegion t p size guard w) {rt' : RegTable} {la un : Nat}
    (hhas : ∀ q, rt'.Has q ↔ w.σ.rt.Has q ∨ q = ⟨p, size, guard⟩) {q : Nat} (hq : q ≠ p) :
    KeepB ro w (w.insertReg t rt' ⟨p, size, guard⟩ la un) q where
  blk := setBlk_ne _ _ hq
  small := fun _ _ _ _ hs => (insertReg_lstep H).keepSmall hro h hs
  large := fun s g hr => ⟨(hhas _).mpr (Or.inl hr), rfl, fun _ _ => rfl⟩

theorem insertReg_trans (hro : RoOk ro) (h : GInv ro w) (H : HeldRegion t p size guard w) {rt' : RegTable} {la un : Nat}
    (hinv : rt'.Inv hashPage) (hhas : ∀ q, rt'.Has q ↔ w.σ.rt.Has q ∨ q = ⟨p, size, guard⟩)
    (hst : StatOk ro w → (la < W64 ∧ (la + un) % W64 = (w.σ.largeAllocated + w.G.untracked + size) % W64) ∨ ro.g.stats = false) :
    Guar ro t w (w.insertReg t rt' ⟨p, size, guard⟩ la un) where
  inv := insertReg_ginv hro h H hinv hhas
  same := fun o hn ho => by
    refine Same.of (SameB.of_keep (· = p) (fun q hq => insertReg_keep hro h H hhas hq) ?_) ?_
    · rintro q rfl
      refine ⟨by rw [H.blk hro h]; exact hn.symm, ?_⟩
      show setBlk _ _ _ _ ≠ _
      rw [setBlk_same]; exact ho.symm
    · rintro t' rfl
      refine ⟨fun pg => ?_, fun _ _ => rfl, fun _ _ => rfl⟩
      have ht : t' ≠ t := fun e => ho (by rw [e])
      show (if RegPages p size guard pg then _ else _) = _ ↔ _
      by_cases e : RegPages p size guard pg
      · rw [if_pos e, H.own pg e]
        exact ⟨fun e => by simp at e, fun e => by simp only [Owner.held.injEq] at e; exact absurd e.symm ht⟩
      · rw [if_neg e]
  content := (insertReg_lstep H).content hro h
  stat := fun hs => by
    refine ⟨(insertReg_lstep H).statSmall hs, fun h0 => ?_⟩
    rcases hst hs with ⟨h1, h2⟩ | h1
    · have h3 := hs.large h0
      refine ⟨h1, ?_⟩
      show (la + un) % W64 = regionBytes rt' % W64
      have : regionBytes rt' = regionBytes w.σ.rt + size := by
        unfold regionBytes
        have : rt'.regs = insert ⟨p, size, guard⟩ w.σ.rt.regs := by
          ext q; rw [RegTable.mem_regs, hhas, Finset.mem_insert, RegTable.mem_regs]; exact or_comm
        rw [this, Finset.sum_insert, Nat.add_comm]
        rw [RegTable.mem_regs]
        exact fun e => H.not_has h _ e rfl
      rw [this, h2, Nat.add_mod, h3.2, ← Nat.add_mod]
    · rw [h1] at h0; exact absurd h0 (by simp)
  delay := by
    refine (insertReg_lstep H).delay (Nat.le_refl _) fun pg => ?_
    refine Nat.le_trans (pageDelay_congr (w' := w.insertReg t rt' ⟨p, size, guard⟩ la un) rfl ?_) (Nat.le_add_right _ _)
    show (if RegPages p size guard pg then _ else _) = _ ∨ _
    by_cases e : RegPages p size guard pg
    · right; rw [H.own pg e]; simp
    · left; rw [if_neg e]

/-- The only page owner change for thread `t` itself: the pages of the region are no longer held. -/
theorem insertReg_pages {rt' : RegTable} {la un : Nat} {pg : Nat} :
    (w.insertReg t rt' ⟨p, size, guard⟩ la un).G.own pg = .held t ↔ w.G.own pg = .held t ∧ ¬ RegPages p size guard pg := by
  show (if RegPages p size guard pg then _ else _) = _ ↔ _
  by_cases e : RegPages p size guard pg
  · rw [if_pos e]; simp [e]
  · rw [if_neg e]; simp [e]

end

/-! ### Deleting a region -/

/-- The world after deleting region `r`. -/
def World.removeReg (w : World) (t : Nat) (rt' : RegTable) (r : RegionMeta) (la : Nat) : World :=
  ⟨{ w.σ with rt := rt', largeAllocated := la },
   { w.G with own := fun pg => if w.G.own pg = .reg r.p then .held t else w.G.own pg, blk := setBlk w.G.blk r.p .nobody }⟩

section
variable {w : World} {t : Nat} {r : RegionMeta} {rt' : RegTable} {la : Nat}

theorem removeReg_lstep : LStep w (w.removeReg t rt' r la) := by
  refine ⟨rfl, rfl, rfl, rfl, rfl, fun pg => ?_, fun _ _ => rfl, fun _ _ => rfl⟩
  unfold World.removeReg
  simp only
  by_cases e : w.G.own pg = .reg r.p
  · rw [if_pos e, e]; simp
  · rw [if_neg e]

theorem removeReg_own {pg : Nat} {o : Owner} (h1 : o ≠ .held t) (h2 : o ≠ .reg r.p) :
    (w.removeReg t rt' r la).G.own pg = o ↔ w.G.own pg = o := by
  unfold World.removeReg
  simp only
  by_cases e : w.G.own pg = .reg r.p
  · rw [if_pos e, e]
    exact ⟨fun e => absurd e.symm h1, fun e => absurd e.symm h2⟩
  · rw [if_neg e]

theorem removeReg_ginv (hro : RoOk ro) (h : GInv ro w) (hr : w.σ.rt.Has r) (heff : w.G.eff r.p = none)
    (hinv : rt'.Inv hashPage) (hhas : ∀ q, rt'.Has q ↔ w.σ.rt.Has q ∧ q ≠ r) : GInv ro (w.removeReg t rt' r la) := by
  have L := removeReg_lstep (w := w) (t := t) (rt' := rt') (r := r) (la := la)
  have hne : ∀ q, rt'.Has q → q.p ≠ r.p := fun q hq e => ((hhas q).mp hq).2 (h.has_unique ((hhas q).mp hq).1 hr e)
  refine ⟨h.cls, L.clsVm hro h, L.gaps h, hinv, fun r hr => h.reg r ((hhas r).mp hr).1, fun pg => (L.slab pg).trans (h.slabOwn pg),
    fun pg q => ?_, fun r pg hr hx => h.regRw r pg ((hhas r).mp hr).1 hx, fun r pg hr hx => h.regLo r pg ((hhas r).mp hr).1 hx,
    fun r pg hr hx => h.regHi r pg ((hhas r).mp hr).1 hx, fun pg i => (removeReg_own (by simp) (by simp)).trans (h.qrOwn pg i),
    fun pg i => (removeReg_own (by simp) (by simp)).trans (h.qqOwn pg i), h.qrOk, h.qqOk, h.qi, fun pg hpg => ?_, fun q => ?_,
    fun q n e => ?_, h.cache,
    fun hc pg i ho => h.qprot hc pg i (ho.imp (removeReg_own (by simp) (by simp)).mp (removeReg_own (by simp) (by simp)).mp)⟩
  · by_cases hq : q = r.p
    · subst hq
      constructor
      · intro e
        unfold World.removeReg at e
        simp only at e
        by_cases e' : w.G.own pg = .reg r.p
        · rw [if_pos e'] at e; exact absurd e (by simp)
        · rw [if_neg e'] at e; exact absurd e e'
      · rintro ⟨r', hr', e, _⟩
        exact absurd e (hne r' hr')
    · rw [removeReg_own (by simp) (by simpa using hq), h.regOwn]
      constructor
      · rintro ⟨r', hr', e, hx⟩
        exact ⟨r', (hhas r').mpr ⟨hr', fun e' => hq (by rw [← e, e'])⟩, e, hx⟩
      · rintro ⟨r', hr', e, hx⟩
        exact ⟨r', ((hhas r').mp hr').1, e, hx⟩
  · refine h.mapped pg fun e => hpg ?_
    unfold World.removeReg; simp only; rw [if_neg (by rw [e]; simp)]; exact e
  · show setBlk _ _ _ q ≠ _ ↔ _
    by_cases hq : q = r.p
    · subst hq
      rw [setBlk_same]
      refine ⟨fun e => absurd rfl e, ?_⟩
      rintro (⟨a, c, i, k, hs⟩ | ⟨s, g, hr'⟩)
      · exfalso
        have hs : IsSmall ro w.σ r.p a c i k := hs
        obtain ⟨hi, hk, _⟩ := hs.lt h
        have := slotAddr_classMem (a := a) hs.2.1 hi hk
        rw [← hs.2.2.1] at this
        exact h.has_not_slot hro hr hs.1 hs.2.1 this
      · exact absurd rfl (hne ⟨r.p, s, g⟩ hr')
    · rw [setBlk_ne _ _ hq, h.blk]
      refine or_congr Iff.rfl (exists_congr fun s => exists_congr fun g => ?_)
      show _ ↔ rt'.Has _
      rw [hhas]
      exact ⟨fun e => ⟨e, fun e' => hq (by rw [← e'])⟩, And.left⟩
  · have hq : q ≠ r.p := by
      rintro rfl
      have e : w.G.eff r.p = some n := e
      rw [heff] at e; exact absurd e (by simp)
    obtain ⟨⟨t', ht'⟩, s, g, hr', rest⟩ := h.eff q n e
    refine ⟨⟨t', ?_⟩, s, g, (hhas _).mpr ⟨hr', fun e' => hq (by rw [← e'])⟩, rest⟩
    show setBlk _ _ _ q = _
    rw [setBlk_ne _ _ hq]; exact ht'

theorem removeReg_keep (hro : RoOk ro) (h : GInv ro w) (hhas : ∀ q, rt'.Has q ↔ w.σ.rt.Has q ∧ q ≠ r) {q : Nat} (hq : q ≠ r.p) :
    KeepB ro w (w.removeReg t rt' r la) q where
  blk := setBlk_ne _ _ hq
  small := fun _ _ _ _ hs => removeReg_lstep.keepSmall hro h hs
  large := fun s g hr => ⟨(hhas _).mpr ⟨hr, fun e => hq (by rw [← e])⟩, rfl, fun _ _ => rfl⟩

theorem removeReg_trans (hro : RoOk ro) (h : GInv ro w) (hr : w.σ.rt.Has r) (heff : w.G.eff r.p = none)
    (hb : w.G.blk r.p = .thr t) (hinv : rt'.Inv hashPage) (hhas : ∀ q, rt'.Has q ↔ w.σ.rt.Has q ∧ q ≠ r)
    (hst : la = sub64 w.σ.largeAllocated r.size ∨ ro.g.stats = false) : Guar ro t w (w.removeReg t rt' r la) where
  inv := removeReg_ginv hro h hr heff hinv hhas
  same := fun o hn ho => by
    refine Same.of (SameB.of_keep (· = r.p) (fun q hq => removeReg_keep hro h hhas hq) ?_) ?_
    · rintro q rfl
      refine ⟨by rw [hb]; exact ho.symm, ?_⟩
      show setBlk _ _ _ _ ≠ _
      rw [setBlk_same]; exact hn.symm
    · rintro t' rfl
      exact ⟨fun pg => removeReg_own (fun e => ho (by cases e; rfl)) (by simp), fun _ _ => rfl, fun _ _ => rfl⟩
  content := removeReg_lstep.content hro h
  stat := fun hs => by
    refine ⟨removeReg_lstep.statSmall hs, fun h0 => ?_⟩
    rcases hst with h1 | h1
    · obtain ⟨h2, h3⟩ := hs.large h0
      have hsz : r.size < W64 := by
        have := (h.reg r hr).hi
        have := pageUp_le_iff (n := r.size)
        omega
      show la < W64 ∧ (la + w.G.untracked) % W64 = regionBytes rt' % W64
      have : regionBytes w.σ.rt = regionBytes rt' + r.size := by
        unfold regionBytes
        have : w.σ.rt.regs = insert r rt'.regs := by
          ext q
          rw [RegTable.mem_regs, Finset.mem_insert, RegTable.mem_regs, hhas]
          constructor
          · intro hq
            by_cases e : q = r
            · exact Or.inl e
            · exact Or.inr ⟨hq, e⟩
          · rintro (rfl | ⟨hq, _⟩)
            · exact hr
            · exact hq
        rw [this, Finset.sum_insert, Nat.add_comm]
        rw [RegTable.mem_regs, hhas]
        exact fun e => e.2 rfl
      rw [this] at h3
      rw [h1]
      unfold sub64
      generalize regionBytes rt' = B at *
      generalize w.σ.largeAllocated = A at *
      generalize w.G.untracked = U at *
      omega
    · rw [h1] at h0; exact absurd h0 (by simp)
  delay := by
    refine removeReg_lstep.delay (Nat.le_refl _) fun pg => ?_
    refine Nat.le_trans (pageDelay_congr (w' := w.removeReg t rt' r la) rfl ?_) (Nat.le_add_right _ _)
    show (if w.G.own pg = .reg r.p then _ else _) = _ ∨ _
    by_cases e : w.G.own pg = .reg r.p
    · right; rw [e]; simp
    · left; rw [if_neg e]

/-- The pages of the region become held by `t`, laid out as a region. -/
theorem removeReg_held (h : GInv ro w) (hr : w.σ.rt.Has r) (heff : w.G.eff r.p = none) :
    HeldRegion t r.p r.size r.guard (w.removeReg t rt' r la) := by
  have hes : w.G.effSize r = r.size := by unfold Gh.effSize; rw [heff]; rfl
  refine ⟨h.reg r hr, fun pg hpg => ?_, fun pg hpg => h.regRw r pg hr (by rw [hes]; exact hpg), fun pg hpg => h.regLo r pg hr hpg,
    fun pg hpg => h.regHi r pg hr (by rw [hes]; exact hpg)⟩
  unfold World.removeReg; simp only
  rw [if_pos ((h.regOwn pg r.p).mpr ⟨r, hr, rfl, by rw [hes]; exact hpg⟩)]

theorem removeReg_pages {pg : Nat} : (w.removeReg t rt' r la).G.own pg = .held t ↔ w.G.own pg = .held t ∨ w.G.own pg = .reg r.p := by
  unfold World.removeReg; simp only
  by_cases e : w.G.own pg = .reg r.p
  · rw [if_pos e]; simp [e]
  · rw [if_neg e]; simp [e]

end

end HM
