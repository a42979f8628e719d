import Verif.Ghost
/-
Layout of the slab region (h_malloc.c:295-299, 736-744, 1268-1270).
-/
namespace HM

variable {ro : Ro}

theorem RoOk.real_pos (h : RoOk ro) : 0 < ro.g.realClassRegionSize := by
  have := h.valid.classRegionMin
  unfold Cfg.realClassRegionSize; omega

theorem nClasses_pos (g : Cfg) : 0 < nClasses g := by unfold nClasses; split <;> decide

theorem RoOk.arena_pos (h : RoOk ro) : 0 < ro.arenaSize :=
  Nat.mul_pos h.real_pos (nClasses_pos _)

/-- The start of the part of the slab region set aside for a class. -/
def Ro.cell (ro : Ro) (a c : Nat) : Nat := ro.slabStart + ro.arenaSize * a + ro.g.realClassRegionSize * c

theorem RoOk.cell_hi (h : RoOk ro) {a c : Nat} (ha : a < ro.g.nArena) (hc : c < nClasses ro.g) :
    ro.cell a c + ro.g.realClassRegionSize ≤ ro.slabEnd := by
  have h1 : ro.g.realClassRegionSize * (c + 1) ≤ ro.arenaSize := Nat.mul_le_mul_left _ hc
  have h2 : ro.arenaSize * (a + 1) ≤ ro.arenaSize * ro.g.nArena := Nat.mul_le_mul_left _ ha
  rw [Nat.mul_add, Nat.mul_one] at h1 h2
  unfold Ro.cell Ro.slabEnd
  omega

theorem Ro.regionStart_eq (ro : Ro) (a c : Nat) : ro.regionStart a c = ro.cell a c + ro.gap a c := rfl

theorem Ro.slabEnd_eq (ro : Ro) : ro.slabEnd = ro.slabStart + ro.arenaSize * ro.g.nArena := rfl

theorem RoOk.cell_lo (ro : Ro) (a c : Nat) : ro.slabStart ≤ ro.cell a c := by unfold Ro.cell; omega

theorem RoOk.arena_mod (h : RoOk ro) : ro.arenaSize % PAGE = 0 := by
  unfold Ro.arenaSize Cfg.realClassRegionSize
  rw [Nat.mul_mod, Nat.mul_mod ro.g.classRegionSize, h.valid.classRegionPage]; simp

theorem RoOk.cell_mod (h : RoOk ro) (a c : Nat) : ro.cell a c % PAGE = 0 := by
  have h1 := h.valid.classRegionPage
  have h2 := h.mod
  have h3 := h.arena_mod
  unfold Ro.cell Cfg.realClassRegionSize
  rw [Nat.add_mod, Nat.add_mod ro.slabStart, Nat.mul_mod ro.arenaSize, h3, Nat.mul_mod (ro.g.classRegionSize * 2),
    Nat.mul_mod ro.g.classRegionSize, h1, h2]
  simp

theorem RoOk.slabEnd_mod (h : RoOk ro) : ro.slabEnd % PAGE = 0 := by
  rw [Ro.slabEnd_eq, Nat.add_mod, Nat.mul_mod, h.arena_mod, h.mod]; simp

theorem RoOk.base (h : RoOk ro) {a c : Nat} (ha : a < ro.g.nArena) (hc : c < nClasses ro.g) :
    BaseOk ro.g (ro.regionStart a c) where
  mod := by
    rw [Ro.regionStart_eq, Nat.add_mod, h.cell_mod, h.gapMod a c ha hc]
  pos := by
    have := h.lo
    have := RoOk.cell_lo ro a c
    rw [Ro.regionStart_eq]; omega
  hi := by
    have := h.cell_hi ha hc
    have := h.gapHi a c ha hc
    have := h.hi
    rw [Ro.regionStart_eq]; omega

theorem RoOk.region_in_cell (h : RoOk ro) {a c : Nat} (ha : a < ro.g.nArena) (hc : c < nClasses ro.g) :
    ro.cell a c + PAGE ≤ ro.regionStart a c ∧
    ro.regionStart a c + ro.g.classRegionSize + PAGE ≤ ro.cell a c + ro.g.realClassRegionSize := by
  have := h.gapHi a c ha hc
  have := h.gapLo a c ha hc
  rw [Ro.regionStart_eq]; omega

theorem divmod_cell {A R N a c x : Nat} (hR : 0 < R) (hA : A = R * N) (hc : c < N) (h : R * c ≤ x) (h' : x < R * c + R) :
    (A * a + x) / A = a ∧ (A * a + x) % A / R = c := by
  have h1 : R * (c + 1) ≤ R * N := Nat.mul_le_mul_left _ hc
  rw [Nat.mul_add, Nat.mul_one] at h1
  have hx : x < A := by omega
  have hApos : 0 < A := by omega
  refine ⟨?_, ?_⟩
  · rw [Nat.mul_add_div hApos, Nat.div_eq_of_lt hx, Nat.add_zero]
  · rw [Nat.mul_add_mod, Nat.mod_eq_of_lt hx]
    apply Nat.div_eq_of_lt_le
    · rw [Nat.mul_comm]; exact h
    · rw [Nat.mul_comm, Nat.mul_add, Nat.mul_one]; exact h'

/-- Addresses of the cell of a class are recognised as belonging to it. -/
theorem RoOk.sizeClassOf (h : RoOk ro) {a c x : Nat} (ha : a < ro.g.nArena) (hc : c < nClasses ro.g)
    (hx : inRange (ro.cell a c) ro.g.realClassRegionSize x) : ro.sizeClassOf x = (a, c) := by
  have h1 := h.cell_hi ha hc
  have h2 := h.hi
  unfold inRange at hx
  have h3 := RoOk.cell_lo ro a c
  have hoff : sub64 x ro.slabStart = x - ro.slabStart := sub64_of_le (by omega) (by omega)
  unfold Ro.sizeClassOf
  simp only [hoff]
  have e : x - ro.slabStart = ro.arenaSize * a + (x - ro.slabStart - ro.arenaSize * a) := by
    unfold Ro.cell at hx; omega
  have := divmod_cell (a := a) h.real_pos (show ro.arenaSize = _ from rfl) hc (x := x - ro.slabStart - ro.arenaSize * a)
    (by unfold Ro.cell at hx; omega) (by unfold Ro.cell at hx; omega)
  rw [← e] at this
  by_cases hn : 1 < ro.g.nArena
  · rw [if_pos hn, this.1, this.2]
  · rw [if_neg hn]
    have ha0 : a = 0 := by omega
    subst ha0
    have h4 := h.arena_pos
    have : x - ro.slabStart < ro.arenaSize := by
      have h5 : ro.arenaSize * ro.g.nArena ≤ ro.arenaSize * 1 := Nat.mul_le_mul_left _ (by omega)
      rw [Ro.slabEnd_eq] at h1
      omega
    have h6 := this
    rw [← Nat.mod_eq_of_lt this]
    rename_i h7
    rw [h7.2]

/-- Every address of the slab region belongs to the cell of some class. -/
theorem RoOk.sizeClassOf_lt (h : RoOk ro) {p : Nat} (hp : ro.inSlab p = true) :
    (ro.sizeClassOf p).1 < ro.g.nArena ∧ (ro.sizeClassOf p).2 < nClasses ro.g ∧
    inRange (ro.cell (ro.sizeClassOf p).1 (ro.sizeClassOf p).2) ro.g.realClassRegionSize p := by
  unfold Ro.inSlab at hp
  simp only [Bool.and_eq_true, decide_eq_true_eq] at hp
  obtain ⟨h1, h2⟩ := hp
  have h3 := h.hi
  have hoff : sub64 p ro.slabStart = p - ro.slabStart := sub64_of_le (by omega) h2
  have hAp := h.arena_pos
  have hRp := h.real_pos
  have hlt : p - ro.slabStart < ro.arenaSize * ro.g.nArena := by rw [Ro.slabEnd_eq] at h1; omega
  have hmod : (p - ro.slabStart) % ro.arenaSize < ro.arenaSize := Nat.mod_lt _ hAp
  have hdm := Nat.div_add_mod (p - ro.slabStart) ro.arenaSize
  have hdm2 := Nat.div_add_mod ((p - ro.slabStart) % ro.arenaSize) ro.g.realClassRegionSize
  have hm2 := Nat.mod_lt ((p - ro.slabStart) % ro.arenaSize) hRp
  have hc : (p - ro.slabStart) % ro.arenaSize / ro.g.realClassRegionSize < nClasses ro.g := by
    rw [Nat.div_lt_iff_lt_mul hRp, Nat.mul_comm]; exact hmod
  have ha : (p - ro.slabStart) / ro.arenaSize < ro.g.nArena := by
    rw [Nat.div_lt_iff_lt_mul hAp, Nat.mul_comm]; exact hlt
  have key : ro.sizeClassOf p =
      ((p - ro.slabStart) / ro.arenaSize, (p - ro.slabStart) % ro.arenaSize / ro.g.realClassRegionSize) := by
    unfold Ro.sizeClassOf
    simp only [hoff]
    by_cases hn : 1 < ro.g.nArena
    · rw [if_pos hn]
    · rw [if_neg hn]
      have h0 : (p - ro.slabStart) / ro.arenaSize = 0 := by
        generalize (p - ro.slabStart) / ro.arenaSize = q at ha
        omega
      have : p - ro.slabStart < ro.arenaSize := by
        rcases Nat.div_eq_zero_iff.mp h0 with h | h <;> omega
      rw [h0, Nat.mod_eq_of_lt this]
  rw [key]
  refine ⟨ha, hc, ?_⟩
  unfold inRange Ro.cell
  clear key ha hc hmod hlt hoff
  generalize ro.arenaSize * ((p - ro.slabStart) / ro.arenaSize) = u at *
  generalize (p - ro.slabStart) % ro.arenaSize = v at *
  generalize v % ro.g.realClassRegionSize = m at *
  simp only
  generalize ro.g.realClassRegionSize * (v / ro.g.realClassRegionSize) = z at *
  omega

/-- Cells of different classes do not overlap. -/
theorem RoOk.cell_inj (h : RoOk ro) {a c a' c' x : Nat} (ha : a < ro.g.nArena) (hc : c < nClasses ro.g)
    (ha' : a' < ro.g.nArena) (hc' : c' < nClasses ro.g)
    (hx : inRange (ro.cell a c) ro.g.realClassRegionSize x) (hx' : inRange (ro.cell a' c') ro.g.realClassRegionSize x) :
    a = a' ∧ c = c' := by
  have h1 := h.sizeClassOf ha hc hx
  rw [h.sizeClassOf ha' hc' hx'] at h1
  simp only [Prod.mk.injEq] at h1
  exact ⟨h1.1.symm, h1.2.symm⟩

theorem RoOk.region_cell (h : RoOk ro) {a c x : Nat} (ha : a < ro.g.nArena) (hc : c < nClasses ro.g)
    (hx : inRange (ro.regionStart a c) ro.g.classRegionSize x) : inRange (ro.cell a c) ro.g.realClassRegionSize x := by
  have := h.region_in_cell ha hc
  unfold inRange at *; omega

theorem RoOk.cell_slab (h : RoOk ro) {a c x : Nat} (ha : a < ro.g.nArena) (hc : c < nClasses ro.g)
    (hx : inRange (ro.cell a c) ro.g.realClassRegionSize x) : ro.inSlab x = true := by
  have h1 := h.cell_hi ha hc
  have h2 := RoOk.cell_lo ro a c
  unfold Ro.inSlab inRange at *
  simp only [Bool.and_eq_true, decide_eq_true_eq]
  omega

theorem RoOk.inSlab_pages (h : RoOk ro) (x : Nat) :
    inPages ro.slabStart (ro.arenaSize * ro.g.nArena) (x / PAGE) ↔ ro.inSlab x = true := by
  have h1 := h.mod
  have h2 := h.slabEnd_mod
  rw [Ro.slabEnd_eq] at h2
  unfold Ro.inSlab inPages Ro.slabEnd
  simp only [Bool.and_eq_true, decide_eq_true_eq]
  omega

/-- The slots of a class lie in its region. -/
theorem slot_in_region (h : RoOk ro) {a c i k x : Nat} (_ha : a < ro.g.nArena) (hc : c < nClasses ro.g)
    (hi : i < ro.g.metaMax c) (hk : k < ro.g.slots c)
    (hx : inRange (slotAddr ro.g (ro.regionStart a c) c i k) (ro.g.slotSize c) x) :
    inRange (ro.regionStart a c) ro.g.classRegionSize x := by
  have h1 := slot_range_slab hc hk hx
  have h2 := slab_in_region hc hi
  unfold inRange slabAddr at *
  omega

theorem slab_in_class (h : RoOk ro) {a c i x : Nat} (_ha : a < ro.g.nArena) (hc : c < nClasses ro.g)
    (hi : i < ro.g.metaMax c)
    (hx : inRange (slabAddr (ro.regionStart a c) (ro.g.slabSize c) i) (ro.g.slabSize c) x) :
    inRange (ro.regionStart a c) ro.g.classRegionSize x := by
  have h2 := slab_in_region hc hi
  unfold inRange slabAddr at *
  omega

/-- Inside the usable part of the class region, every address is in a slab. -/
theorem slab_cover {g : Cfg} {base c x : Nat} (hc : c < nClasses g) (hx : inRange base (g.metaMax c * g.slabSize c) x) :
    ∃ i, i < g.metaMax c ∧ inRange (slabAddr base (g.slabSize c) i) (g.slabSize c) x := by
  have G := classGeo g hc
  have hpos : 0 < g.slabSize c := by have := G.slab_ge; omega
  unfold inRange at hx
  refine ⟨(x - base) / g.slabSize c, ?_, ?_⟩
  · rw [Nat.div_lt_iff_lt_mul hpos]; omega
  · have h1 := Nat.div_add_mod (x - base) (g.slabSize c)
    have h2 := Nat.mod_lt (x - base) hpos
    rw [Nat.mul_comm] at h1
    unfold inRange slabAddr
    omega

theorem slab_of_slab {g : Cfg} {base c i x : Nat} (hc : c < nClasses g) (hi : i < g.metaMax c)
    (hx : inRange (slabAddr base (g.slabSize c) i) (g.slabSize c) x) : inRange base (g.metaMax c * g.slabSize c) x := by
  have h2 : (i + 1) * g.slabSize c ≤ g.metaMax c * g.slabSize c := Nat.mul_le_mul_right _ hi
  rw [Nat.add_mul, Nat.one_mul] at h2
  unfold inRange slabAddr at *
  omega

end HM
