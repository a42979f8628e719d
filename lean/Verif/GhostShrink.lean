import Verif.GhostRegion
/-
Shrinking a region in place, writes into blocks, and the region quarantine.
-/
namespace HM

variable {ro : Ro}

theorem GInv.effPos {w : World} (h : GInv ro w) {r : RegionMeta} (hr : w.σ.rt.Has r) : 0 < w.G.effSize r := by
  unfold Gh.effSize
  cases e : w.G.eff r.p with
  | none => exact (h.reg r hr).size
  | some n => obtain ⟨_, s, g, _, h0, _⟩ := h.eff r.p n e; exact h0

theorem GInv.effLe {w : World} (h : GInv ro w) {r : RegionMeta} (hr : w.σ.rt.Has r) : w.G.effSize r ≤ r.size := by
  unfold Gh.effSize
  cases e : w.G.eff r.p with
  | none => exact Nat.le_refl _
  | some n =>
    obtain ⟨_, s, g, hr', _, h0, _⟩ := h.eff r.p n e
    rw [h.has_unique hr hr' rfl]; exact h0

/-! ### Shrinking: the new guard -/

/-- The world after the new guard of a region has been mapped. -/
def World.shrinkReg (w : World) (t : Nat) (r : RegionMeta) (n : Nat) (vm' : Vm) : World :=
  ⟨{ w.σ with vm := vm' },
   { w.G with own := fun pg => if w.G.own pg = .reg r.p ∧ ¬ RegPages r.p n r.guard pg then .held t else w.G.own pg,
              eff := fun q => if q = r.p then some n else w.G.eff q }⟩

section
variable {w : World} {t n : Nat} {r : RegionMeta} {vm' : Vm}

/-- The new guard. -/
structure ShrinkVm (r : RegionMeta) (n : Nat) (vm vm' : Vm) : Prop where
  prot : ∀ pg, vm'.prot pg = if inPages (r.p + n) r.guard pg then .none else vm.prot pg
  mem : ∀ x, ¬ inPages (r.p + n) r.guard (x / PAGE) → vm'.mem x = vm.mem x

/-- The region can be shrunk to `n` by `t`. -/
structure CanShrink (w : World) (t n : Nat) (r : RegionMeta) : Prop where
  has : w.σ.rt.Has r
  eff : w.G.eff r.p = none
  blk : w.G.blk r.p = .thr t
  pos : 0 < n
  lt : n < r.size
  nmod : n % PAGE = 0
  smod : r.size % PAGE = 0

theorem CanShrink.own (h : GInv ro w) (c : CanShrink w t n r) (pg : Nat) : w.G.own pg = .reg r.p ↔ RegPages r.p r.size r.guard pg := by
  have hes : w.G.effSize r = r.size := by unfold Gh.effSize; rw [c.eff]; rfl
  rw [h.regOwn]
  constructor
  · rintro ⟨r', hr', e, hx⟩
    have := h.has_unique hr' c.has e
    subst this
    rw [hes] at hx; exact hx
  · intro hx
    exact ⟨r, c.has, rfl, by rw [hes]; exact hx⟩

theorem CanShrink.guardPages (h : GInv ro w) (c : CanShrink w t n r) {pg : Nat} (hx : inPages (r.p + n) r.guard pg) :
    RegPages r.p r.size r.guard pg ∧ RegPages r.p n r.guard pg := by
  have R := h.reg r c.has
  have h1 := R.pmod; have h2 := R.gmod; have h3 := R.gpos; have h4 := R.lo
  have h5 := pageUp_of_mod c.nmod; have h6 := pageUp_of_mod c.smod
  have h7 := c.lt; have h8 := c.nmod; have h9 := c.smod
  unfold RegPages
  rw [h5, h6]
  unfold inPages at *
  omega

theorem shrinkReg_own {pg : Nat} {o : Owner} (h1 : o ≠ .held t) (h2 : o ≠ .reg r.p) :
    (w.shrinkReg t r n vm').G.own pg = o ↔ w.G.own pg = o := by
  show (if w.G.own pg = .reg r.p ∧ ¬ RegPages r.p n r.guard pg then _ else _) = o ↔ _
  by_cases e : w.G.own pg = .reg r.p ∧ ¬ RegPages r.p n r.guard pg
  · rw [if_pos e, e.1]
    exact ⟨fun e => absurd e.symm h1, fun e => absurd e.symm h2⟩
  · rw [if_neg e]

theorem shrinkReg_lstep (h : GInv ro w) (c : CanShrink w t n r) (s : ShrinkVm r n w.σ.vm vm') : LStep w (w.shrinkReg t r n vm') := by
  refine ⟨rfl, rfl, rfl, rfl, rfl, fun pg => shrinkReg_own (by simp) (by simp), fun pg hpg => ?_, fun x hx => ?_⟩
  · show vm'.prot pg = _
    rw [s.prot, if_neg]
    intro e
    have := (c.own h pg).mpr (c.guardPages h e).1
    rw [this] at hpg; exact absurd hpg (by simp)
  · refine s.mem x fun e => ?_
    have := (c.own h _).mpr (c.guardPages h e).1
    rw [this] at hx; exact absurd hx (by simp)

theorem shrinkReg_other (h : GInv ro w) (c : CanShrink w t n r) (s : ShrinkVm r n w.σ.vm vm') {pg : Nat} (hp : w.G.own pg ≠ .reg r.p) :
    vm'.prot pg = w.σ.vm.prot pg := by
  rw [s.prot, if_neg]
  exact fun e => hp ((c.own h pg).mpr (c.guardPages h e).1)

theorem shrinkReg_mem (h : GInv ro w) (c : CanShrink w t n r) (s : ShrinkVm r n w.σ.vm vm') {x : Nat} (hp : w.G.own (x / PAGE) ≠ .reg r.p) :
    vm'.mem x = w.σ.vm.mem x :=
  s.mem x fun e => hp ((c.own h _).mpr (c.guardPages h e).1)

theorem shrinkReg_eff_ne {q : RegionMeta} (hq : q.p ≠ r.p) : (w.shrinkReg t r n vm').G.effSize q = w.G.effSize q := by
  unfold Gh.effSize World.shrinkReg
  simp only [if_neg hq]

theorem shrinkReg_eff : (w.shrinkReg t r n vm').G.effSize r = n := by
  unfold Gh.effSize World.shrinkReg
  simp

theorem shrinkReg_ginv (hro : RoOk ro) (h : GInv ro w) (c : CanShrink w t n r) (s : ShrinkVm r n w.σ.vm vm') :
    GInv ro (w.shrinkReg t r n vm') := by
  have L := shrinkReg_lstep h c s
  have R := h.reg r c.has
  have hn := pageUp_of_mod c.nmod
  have hes : w.G.effSize r = r.size := by unfold Gh.effSize; rw [c.eff]; rfl
  refine ⟨h.cls, L.clsVm hro h, L.gaps h, h.rt, h.reg, fun pg => (L.slab pg).trans (h.slabOwn pg),
    fun pg q => ?_, fun q pg hq hx => ?_, fun q pg hq hx => ?_, fun q pg hq hx => ?_, 
    fun pg i => (shrinkReg_own (by simp) (by simp)).trans (h.qrOwn pg i),
    fun pg i => (shrinkReg_own (by simp) (by simp)).trans (h.qqOwn pg i), h.qrOk, h.qqOk, h.qi, fun pg hpg => ?_, h.blk,
    fun q m e => ?_, h.cache, fun hc pg i ho => by
      show vm'.prot pg ≠ _
      rw [s.prot]
      split
      · simp
      · exact h.qprot hc pg i (ho.imp (shrinkReg_own (by simp) (by simp)).mp (shrinkReg_own (by simp) (by simp)).mp)⟩
  · by_cases hq : q = r.p
    · subst hq
      show (if w.G.own pg = .reg r.p ∧ ¬ RegPages r.p n r.guard pg then _ else _) = _ ↔ _
      constructor
      · intro e
        by_cases e' : w.G.own pg = .reg r.p ∧ ¬ RegPages r.p n r.guard pg
        · rw [if_pos e'] at e; exact absurd e (by simp)
        · rw [if_neg e'] at e
          refine ⟨r, c.has, rfl, ?_⟩
          rw [shrinkReg_eff]
          by_contra hc
          exact e' ⟨e, hc⟩
      · rintro ⟨r', hr', e, hx⟩
        have := h.has_unique hr' c.has e
        subst this
        rw [shrinkReg_eff] at hx
        have hx : RegPages r'.p n r'.guard pg := hx
        rw [if_neg (fun e => e.2 hx), c.own h]
        have h6 := pageUp_mono (Nat.le_of_lt c.lt)
        unfold RegPages inPages at *
        omega
    · rw [shrinkReg_own (by simp) (by simpa using hq), h.regOwn]
      refine exists_congr fun q' => and_congr Iff.rfl ⟨?_, ?_⟩
      · rintro ⟨e, hx⟩
        exact ⟨e, by rw [shrinkReg_eff_ne (by rw [e]; exact hq)]; exact hx⟩
      · rintro ⟨e, hx⟩
        exact ⟨e, by rw [shrinkReg_eff_ne (by rw [e]; exact hq)] at hx; exact hx⟩
  · by_cases hq' : q.p = r.p
    · have := h.has_unique hq c.has hq'
      subst this
      rw [shrinkReg_eff] at hx
      show vm'.prot pg = _
      rw [s.prot, if_neg]
      · refine h.regRw q pg c.has ?_
        rw [hes]
        have := c.lt
        unfold inPages at *; omega
      · have := R.pmod
        have := c.nmod
        unfold inPages at *; omega
    · rw [shrinkReg_eff_ne hq'] at hx
      show vm'.prot pg = _
      rw [shrinkReg_other h c s (by rw [h.reg_body hq hx]; simpa using hq')]
      exact h.regRw q pg hq hx
  · show vm'.prot pg = _
    rw [s.prot]
    split
    · rfl
    · exact h.regLo q pg hq hx
  · by_cases hq' : q.p = r.p
    · have := h.has_unique hq c.has hq'
      subst this
      rw [shrinkReg_eff, hn] at hx
      show vm'.prot pg = _
      rw [s.prot, if_pos hx]
    · rw [shrinkReg_eff_ne hq'] at hx
      show vm'.prot pg = _
      rw [s.prot]
      split
      · rfl
      · exact h.regHi q pg hq hx
  · have : w.G.own pg ≠ .none := by
      intro e
      have : (w.shrinkReg t r n vm').G.own pg = .none := (shrinkReg_own (by simp) (by simp)).mpr e
      exact hpg this
    show vm'.prot pg ≠ _
    rw [s.prot]
    split
    · simp
    · exact h.mapped pg this
  · by_cases hq : q = r.p
    · subst hq
      have e : (if r.p = r.p then some n else w.G.eff r.p) = some m := e
      rw [if_pos rfl] at e
      cases e
      exact ⟨⟨t, c.blk⟩, r.size, r.guard, c.has, c.pos, Nat.le_of_lt c.lt, c.nmod, c.smod⟩
    · have e : (if q = r.p then some n else w.G.eff q) = some m := e
      rw [if_neg hq] at e
      exact h.eff q m e

theorem shrinkReg_keep (hro : RoOk ro) (h : GInv ro w) (c : CanShrink w t n r) (s : ShrinkVm r n w.σ.vm vm') {q : Nat} (hq : q ≠ r.p) :
    KeepB ro w (w.shrinkReg t r n vm') q where
  blk := rfl
  small := fun _ _ _ _ hs => (shrinkReg_lstep h c s).keepSmall hro h hs
  large := fun z g hr => ⟨hr, by show (if q = r.p then _ else _) = _; rw [if_neg hq], fun x hx => by
    refine shrinkReg_mem h c s ?_
    rw [h.reg_body hr (inPages_of_pageUp (h.reg _ hr).pmod hx)]
    simpa using hq⟩

theorem shrinkReg_trans (hro : RoOk ro) (h : GInv ro w) (c : CanShrink w t n r) (s : ShrinkVm r n w.σ.vm vm') :
    Guar ro t w (w.shrinkReg t r n vm') where
  inv := shrinkReg_ginv hro h c s
  same := fun o hn ho => by
    refine Same.of (SameB.of_keep (· = r.p) (fun q hq => shrinkReg_keep hro h c s hq) ?_) ?_
    · rintro q rfl
      have hb : w.G.blk r.p ≠ o := by rw [c.blk]; exact ho.symm
      exact ⟨hb, hb⟩
    · rintro t' rfl
      exact ⟨fun pg => shrinkReg_own (fun e => ho (by cases e; rfl)) (by simp),
        fun pg hpg => shrinkReg_other h c s (by rw [hpg]; simp), fun x hx => shrinkReg_mem h c s (by rw [hx]; simp)⟩
  content := (shrinkReg_lstep h c s).content hro h
  stat := fun hs => ⟨(shrinkReg_lstep h c s).statSmall hs, hs.large⟩
  delay := by
    refine (shrinkReg_lstep h c s).delay (Nat.le_refl _) fun pg => ?_
    refine Nat.le_trans (pageDelay_congr (w' := w.shrinkReg t r n vm') rfl ?_) (Nat.le_add_right _ _)
    show (if w.G.own pg = .reg r.p ∧ ¬ RegPages r.p n r.guard pg then _ else _) = _ ∨ _
    by_cases e : w.G.own pg = .reg r.p ∧ ¬ RegPages r.p n r.guard pg
    · right; rw [e.1]; simp
    · left; rw [if_neg e]

/-- The pages cut off are held by `t`. -/
theorem shrinkReg_held (h : GInv ro w) (c : CanShrink w t n r) {pg : Nat} (hx : inPages (r.p + n + r.guard) (r.size - n) pg) :
    (w.shrinkReg t r n vm').G.own pg = .held t := by
  have R := h.reg r c.has
  have h1 := R.pmod; have h2 := R.gmod; have h3 := R.gpos; have h4 := R.lo
  have h5 := pageUp_of_mod c.nmod; have h6 := pageUp_of_mod c.smod
  have h7 := c.lt; have h8 := c.nmod; have h9 := c.smod
  show (if w.G.own pg = .reg r.p ∧ ¬ RegPages r.p n r.guard pg then _ else _) = _
  rw [if_pos]
  rw [c.own h]
  unfold RegPages
  rw [h5, h6]
  unfold inPages at *
  omega

theorem shrinkReg_pages (h : GInv ro w) (c : CanShrink w t n r) {pg : Nat} :
    (w.shrinkReg t r n vm').G.own pg = .held t ↔ w.G.own pg = .held t ∨ inPages (r.p + n + r.guard) (r.size - n) pg := by
  have R := h.reg r c.has
  have h1 := R.pmod; have h2 := R.gmod; have h3 := R.gpos; have h4 := R.lo
  have h5 := pageUp_of_mod c.nmod; have h6 := pageUp_of_mod c.smod
  have h7 := c.lt; have h8 := c.nmod; have h9 := c.smod
  show (if w.G.own pg = .reg r.p ∧ ¬ RegPages r.p n r.guard pg then _ else _) = _ ↔ _
  by_cases e : w.G.own pg = .reg r.p ∧ ¬ RegPages r.p n r.guard pg
  · rw [if_pos e]
    refine iff_of_true rfl (Or.inr ?_)
    rw [c.own h] at e
    unfold RegPages at e
    rw [h5, h6] at e
    unfold inPages at *
    omega
  · rw [if_neg e]
    refine ⟨Or.inl, ?_⟩
    rintro (e' | e')
    · exact e'
    · exfalso
      apply e
      rw [c.own h]
      unfold RegPages
      rw [h5, h6]
      unfold inPages at *
      omega

/-- The part of the block that is kept is untouched. -/
theorem shrinkReg_block (h : GInv ro w) (c : CanShrink w t n r) (s : ShrinkVm r n w.σ.vm vm') {x : Nat} (hx : inRange r.p n x) :
    vm'.mem x = w.σ.vm.mem x := by
  refine s.mem x fun e => ?_
  have := (h.reg r c.has).pmod
  have := c.nmod
  unfold inPages inRange at *
  omega

end

/-! ### Shrinking: the new size -/

/-- The world after the new size has been recorded. -/
def World.resizeReg (w : World) (rt' : RegTable) (r : RegionMeta) (la : Nat) : World :=
  ⟨{ w.σ with rt := rt', largeAllocated := la }, { w.G with eff := fun q => if q = r.p then none else w.G.eff q }⟩

section
variable {w : World} {t n : Nat} {r : RegionMeta} {rt' : RegTable} {la : Nat}

theorem resizeReg_lstep : LStep w (w.resizeReg rt' r la) :=
  ⟨rfl, rfl, rfl, rfl, rfl, fun _ => Iff.rfl, fun _ _ => rfl, fun _ _ => rfl⟩

theorem resizeReg_eff_ne {q : RegionMeta} (hq : q.p ≠ r.p) : (w.resizeReg rt' r la).G.effSize q = w.G.effSize q := by
  unfold Gh.effSize World.resizeReg
  simp only [if_neg hq]

theorem resizeReg_eff : (w.resizeReg rt' r la).G.effSize ⟨r.p, n, r.guard⟩ = n := by
  unfold Gh.effSize World.resizeReg
  simp

/-- The table after the change of size. -/
def Resized (t t' : RegTable) (r : RegionMeta) (n : Nat) : Prop :=
  ∀ q, t'.Has q ↔ (t.Has q ∧ q ≠ r) ∨ q = ⟨r.p, n, r.guard⟩

theorem resizeReg_effSize (h : GInv ro w) (hr : w.σ.rt.Has r) (he : w.G.eff r.p = some n) (hh : Resized w.σ.rt rt' r n)
    {q : RegionMeta} (hq : rt'.Has q) : ∃ q', w.σ.rt.Has q' ∧ q'.p = q.p ∧ q'.guard = q.guard ∧ (w.resizeReg rt' r la).G.effSize q = w.G.effSize q' := by
  rcases (hh q).mp hq with ⟨h1, h2⟩ | rfl
  · exact ⟨q, h1, rfl, rfl, resizeReg_eff_ne fun e => h2 (h.has_unique h1 hr e)⟩
  · refine ⟨r, hr, rfl, rfl, ?_⟩
    rw [resizeReg_eff]; unfold Gh.effSize; rw [he]; rfl

theorem resizeReg_ginv (hro : RoOk ro) (h : GInv ro w) (hr : w.σ.rt.Has r) (he : w.G.eff r.p = some n)
    (hinv : rt'.Inv hashPage) (hh : Resized w.σ.rt rt' r n) : GInv ro (w.resizeReg rt' r la) := by
  have L := resizeReg_lstep (w := w) (rt' := rt') (r := r) (la := la)
  have R := h.reg r hr
  obtain ⟨hb, s, g, hr', n0, nle, nmod, smod⟩ := h.eff r.p n he
  have hsr := h.has_unique hr' hr rfl
  have hs : s = r.size := by rw [← hsr]
  rw [hs] at nle
  have hes : w.G.effSize r = n := by unfold Gh.effSize; rw [he]; rfl
  refine ⟨h.cls, L.clsVm hro h, h.gaps, hinv, fun q hq => ?_, h.slabOwn,
    fun pg q => ?_, fun q pg hq hx => ?_, fun q pg hq hx => ?_, fun q pg hq hx => ?_, h.qrOwn, h.qqOwn, h.qrOk, h.qqOk, h.qi, h.mapped,
    fun q => ?_, fun q m e => ?_, h.cache, h.qprot⟩
  · rcases (hh q).mp hq with ⟨h1, _⟩ | rfl
    · exact h.reg q h1
    · have := pageUp_mono nle
      have := R.hi
      exact ⟨R.pmod, R.gmod, R.gpos, R.lo, n0, by show r.p + pageUp n + r.guard ≤ _; omega, fun _ => nmod⟩
  · refine (h.regOwn pg q).trans ⟨?_, ?_⟩
    · rintro ⟨q', hq', e, hx⟩
      by_cases e' : q' = r
      · subst e'
        refine ⟨⟨q'.p, n, q'.guard⟩, (hh _).mpr (Or.inr rfl), e, ?_⟩
        rw [resizeReg_eff]; rw [hes] at hx; exact hx
      · refine ⟨q', (hh _).mpr (Or.inl ⟨hq', e'⟩), e, ?_⟩
        rw [resizeReg_eff_ne fun e => e' (h.has_unique hq' hr e)]; exact hx
    · rintro ⟨q', hq', e, hx⟩
      obtain ⟨q'', h1, h2, h3, h4⟩ := resizeReg_effSize (la := la) h hr he hh hq'
      refine ⟨q'', h1, h2.trans e, ?_⟩
      rw [h4] at hx; rw [h2, h3]; exact hx
  · obtain ⟨q'', h1, h2, h3, h4⟩ := resizeReg_effSize (la := la) h hr he hh hq
    exact h.regRw q'' pg h1 (by rw [h2, ← h4]; exact hx)
  · obtain ⟨q'', h1, h2, h3, h4⟩ := resizeReg_effSize (la := la) h hr he hh hq
    exact h.regLo q'' pg h1 (by rw [h2, h3]; exact hx)
  · obtain ⟨q'', h1, h2, h3, h4⟩ := resizeReg_effSize (la := la) h hr he hh hq
    exact h.regHi q'' pg h1 (by rw [h2, h3, ← h4]; exact hx)
  · refine (h.blk q).trans (or_congr Iff.rfl ⟨?_, ?_⟩)
    · rintro ⟨s, g, hq⟩
      by_cases e : (⟨q, s, g⟩ : RegionMeta) = r
      · subst e
        exact ⟨n, g, (hh _).mpr (Or.inr rfl)⟩
      · exact ⟨s, g, (hh _).mpr (Or.inl ⟨hq, e⟩)⟩
    · rintro ⟨s, g, hq⟩
      rcases (hh _).mp hq with ⟨h1, _⟩ | e
      · exact ⟨s, g, h1⟩
      · simp only [RegionMeta.mk.injEq] at e
        rw [e.1]; exact ⟨r.size, r.guard, hr⟩
  · have e : (if q = r.p then none else w.G.eff q) = some m := e
    by_cases hq : q = r.p
    · rw [if_pos hq] at e; exact absurd e (by simp)
    · rw [if_neg hq] at e
      obtain ⟨h1, s, g, h2, h3⟩ := h.eff q m e
      exact ⟨h1, s, g, (hh _).mpr (Or.inl ⟨h2, fun e' => hq (by rw [← e'])⟩), h3⟩

theorem resizeReg_keep (hro : RoOk ro) (h : GInv ro w) (hh : Resized w.σ.rt rt' r n) {q : Nat} (hq : q ≠ r.p) :
    KeepB ro w (w.resizeReg rt' r la) q where
  blk := rfl
  small := fun _ _ _ _ hs => resizeReg_lstep.keepSmall hro h hs
  large := fun z g hr => ⟨(hh _).mpr (Or.inl ⟨hr, fun e => hq (by rw [← e])⟩), by show (if q = r.p then _ else _) = _; rw [if_neg hq],
    fun _ _ => rfl⟩

theorem resizeReg_trans (hro : RoOk ro) (h : GInv ro w) (hr : w.σ.rt.Has r) (he : w.G.eff r.p = some n)
    (hb : w.G.blk r.p = .thr t) (hinv : rt'.Inv hashPage) (hh : Resized w.σ.rt rt' r n)
    (hst : la = sub64 w.σ.largeAllocated (r.size - n) ∨ ro.g.stats = false) : Guar ro t w (w.resizeReg rt' r la) where
  inv := resizeReg_ginv hro h hr he hinv hh
  same := fun o hn ho => by
    refine Same.of (SameB.of_keep (· = r.p) (fun q hq => resizeReg_keep hro h hh hq) ?_) ?_
    · rintro q rfl
      have hb : w.G.blk r.p ≠ o := by rw [hb]; exact ho.symm
      exact ⟨hb, hb⟩
    · rintro t' rfl
      exact ⟨fun _ => Iff.rfl, fun _ _ => rfl, fun _ _ => rfl⟩
  content := resizeReg_lstep.content hro h
  stat := fun hs => by
    refine ⟨resizeReg_lstep.statSmall hs, fun h0 => ?_⟩
    rcases hst with h1 | h1
    · obtain ⟨h2, h3⟩ := hs.large h0
      obtain ⟨_, s, g, hr', n0, nle, _⟩ := h.eff r.p n he
      have hs : s = r.size := by rw [← h.has_unique hr' hr rfl]
      rw [hs] at nle
      have hsz : r.size < W64 := by
        have := (h.reg r hr).hi
        have := pageUp_le_iff (n := r.size)
        omega
      show la < W64 ∧ (la + w.G.untracked) % W64 = regionBytes rt' % W64
      have : regionBytes w.σ.rt + n = regionBytes rt' + r.size := by
        unfold regionBytes
        have e1 : w.σ.rt.regs = insert r (w.σ.rt.regs.erase r) := by
          rw [Finset.insert_erase]; rw [RegTable.mem_regs]; exact hr
        have e2 : rt'.regs = insert ⟨r.p, n, r.guard⟩ (w.σ.rt.regs.erase r) := by
          ext q
          rw [RegTable.mem_regs, Finset.mem_insert, Finset.mem_erase, RegTable.mem_regs, hh]
          tauto
        rw [e1, e2, Finset.sum_insert, Finset.sum_insert]
        · simp only; omega
        · rw [Finset.mem_erase, RegTable.mem_regs]
          rintro ⟨e3, e4⟩
          exact e3 (h.has_unique e4 hr rfl)
        · exact Finset.notMem_erase _ _
      rw [h1]
      unfold sub64
      generalize regionBytes rt' = B at *
      generalize regionBytes w.σ.rt = B' at *
      generalize w.σ.largeAllocated = A at *
      generalize w.G.untracked = U at *
      omega
    · rw [h1] at h0; exact absurd h0 (by simp)
  delay := resizeReg_lstep.delay (Nat.le_refl _) fun pg => Nat.le_add_right _ _

end

end HM
