import Verif.Facts
import Verif.Example
import Verif.Props.SizeClass
/-
C17, C18, C19. Where blocks are placed and what surrounds them, in every reachable state, for every application.
-/
namespace HM

variable {g : Cfg} {ro : Ro} {ar : Nat → Nat} {calm : Bool} {D : Client} {h : List Ev} {s : Sys}

/-- Address `x` is in the area set aside, when the allocator is initialised, for size class `c` of arena `a`. -/
def Ro.area (ro : Ro) (a c x : Nat) : Prop := ro.regionStart a c ≤ x ∧ x < ro.regionStart a c + ro.g.classRegionSize

/-- The number of bytes a block of size class `c` offers. -/
def Cfg.offers (g : Cfg) (c : Nat) : Nat := if g.classSize c = 0 then 0 else g.classSize c - g.canarySize

theorem offers_eq (g : Cfg) (c : Nat) : g.offers c = if g.classSize c = 0 then 0 else g.usable c := by
  unfold Cfg.offers Cfg.usable Cfg.slotSize
  split <;> rfl

/-! ### C17 -/

/-- C17. The areas of different classes or arenas are at least a page apart. -/
theorem c17_areas_apart (hg : Good g ar) (r : Reach g ro ar calm D h s) {a c a' c' : Nat} (ha : a < g.nArena) (hc : c < nClasses g)
    (ha' : a' < g.nArena) (hc' : c' < nClasses g) (hne : (a, c) ≠ (a', c')) :
    ro.regionStart a c + g.classRegionSize + 4096 ≤ ro.regionStart a' c' ∨ ro.regionStart a' c' + g.classRegionSize + 4096 ≤ ro.regionStart a c := by
  obtain ⟨hro, rfl⟩ := r.roOk hg
  have h1 := hro.region_in_cell ha hc
  have h2 := hro.region_in_cell ha' hc'
  by_contra hn
  have h3 := hro.real_pos
  rcases Nat.le_total (ro.cell a c) (ro.cell a' c') with k | k
  · obtain ⟨rfl, rfl⟩ := hro.cell_inj ha hc ha' hc' (x := ro.cell a' c') (by unfold inRange; omega) (by unfold inRange; omega)
    exact hne rfl
  · obtain ⟨rfl, rfl⟩ := hro.cell_inj ha hc ha' hc' (x := ro.cell a c) (by unfold inRange; omega) (by unfold inRange; omega)
    exact hne rfl

/-! What follows from the invariant, whether or not calls are in progress. -/

section
variable {w : World}

theorem gap_guarded (hro : RoOk ro) (I : GInv ro w) {x : Nat} (hx : ro.inSlab x = true)
    (hn : ∀ a c, a < ro.g.nArena → c < nClasses ro.g → ¬ ClassMem ro a c x) : w.σ.vm.prot (x / PAGE) = .none := by
  refine I.gaps _ ((inSlab_iff hro I x).mp hx) fun a c y ha hc hy e => ?_
  exact hn a c ha hc (classMem_page hro ha hc hy e.symm)

theorem GInv.separated (hro : RoOk ro) (I : GInv ro w) {a c x : Nat} (ha : a < ro.g.nArena) (hc : c < nClasses ro.g)
    (hx : (ro.regionStart a c ≤ x + 4096 ∧ x < ro.regionStart a c) ∨
      (ro.regionStart a c + ro.g.classRegionSize ≤ x ∧ x < ro.regionStart a c + ro.g.classRegionSize + 4096)) : w.σ.vm.prot (x / 4096) = .none := by
  have h1 := hro.region_in_cell ha hc
  have hcell : inRange (ro.cell a c) ro.g.realClassRegionSize x := by unfold inRange; omega
  refine gap_guarded hro I (hro.cell_slab ha hc hcell) fun a' c' ha' hc' hm => ?_
  have h2 := classMem_region hc' hm
  obtain ⟨rfl, rfl⟩ := hro.cell_inj ha hc ha' hc' hcell (hro.region_cell ha' hc' h2)
  unfold inRange at h2; omega

theorem GInv.block_in_area (hro : RoOk ro) (I : GInv ro w) {p u : Nat} (he : w.G.eff p = none) (hi : UsableIs ro w p u) :
    (∃ a c, a < ro.g.nArena ∧ c < nClasses ro.g ∧ u = ro.g.offers c ∧ ∀ x, p ≤ x → x < p + max 1 (u + ro.g.canarySize) → ro.area a c x) ∨
    (∀ a c, a < ro.g.nArena → c < nClasses ro.g → ∀ x, p ≤ x → x < p + max 1 (u + ro.g.canarySize) → ¬ ro.area a c x) := by
  rcases hi with ⟨a, c, i, k, h1, e⟩ | ⟨gd, h1⟩
  · left
    refine ⟨a, c, h1.1, h1.2.1, by rw [offers_eq]; exact e, fun x k1 k2 => ?_⟩
    obtain ⟨q1, q2, _⟩ := h1.lt I
    have h2 := (usable_le ro c).resolve_right (not_not.mpr h1.2.1)
    rw [← e] at h2
    have h3 := (classGeo ro.g h1.2.1).size_ge
    obtain ⟨ha, hc, hp, _⟩ := h1
    exact slot_in_region hro ha hc q1 q2 (x := x) (by rw [← hp]; unfold inRange; omega)
  · right
    intro a c ha hc x k1 k2 hx
    have h0 := (I.reg _ h1).size
    simp only at h0
    have h2 := UsableIs.extent_of I he (Or.inr ⟨gd, h1⟩) k1 (by omega)
    have h3 := (inSlab_iff hro I x).mp (hro.cell_slab ha hc (hro.region_cell ha hc hx))
    rcases h2 with ⟨a, c, i, k, h2, _⟩ | h2
    · exact not_small_has hro I h2 h1
    · rw [h2] at h3; cases h3

theorem GInv.guard_slab (hro : RoOk ro) (I : GInv ro w) {a c m x : Nat} (ha : a < ro.g.nArena) (hc : c < nClasses ro.g)
    (hm : m % (ro.g.guardSlabsInterval + 1) = ro.g.guardSlabsInterval) (hx : ro.area a c x)
    (h1 : ro.regionStart a c + m * ro.g.slabSize c ≤ x) (h2 : x < ro.regionStart a c + (m + 1) * ro.g.slabSize c) : w.σ.vm.prot (x / 4096) = .none := by
  rw [Nat.add_mul, Nat.one_mul] at h2
  by_cases k : m < ro.g.metaMax c
  · obtain ⟨P, E, F, hi⟩ := I.cls a c ha hc
    have hf : w.G.loc a c m = .fresh := (hi.bits.fresh m).mpr fun hA => hA.2 hm
    refine ((I.clsVm a c ha hc).off m x k (fun hh => ?_) ⟨h1, ?_⟩).1
    · rw [hf] at hh; cases hh.1
    · show x < ro.regionStart a c + m * ro.g.slabSize c + _; omega
  · have hcell := hro.region_cell ha hc hx
    refine gap_guarded hro I (hro.cell_slab ha hc hcell) fun a' c' ha' hc' hm' => ?_
    obtain ⟨rfl, rfl⟩ := hro.cell_inj ha hc ha' hc' hcell (hro.region_cell ha' hc' (classMem_region hc' hm'))
    have : ro.g.metaMax c * ro.g.slabSize c ≤ m * ro.g.slabSize c := Nat.mul_le_mul_right _ (by omega)
    unfold ClassMem inRange at hm'; omega

theorem GInv.block_in_slab (hro : RoOk ro) (I : GInv ro w) {a c p u : Nat} (ha : a < ro.g.nArena) (hc : c < nClasses ro.g)
    (hu : UsableIs ro w p u) (hp : ro.area a c p) :
    u = ro.g.offers c ∧ ∃ m, m % (ro.g.guardSlabsInterval + 1) ≠ ro.g.guardSlabsInterval ∧ (m + 1) * ro.g.slabSize c ≤ ro.g.classRegionSize ∧
      ro.regionStart a c + m * ro.g.slabSize c ≤ p ∧ p + u + ro.g.canarySize ≤ ro.regionStart a c + (m + 1) * ro.g.slabSize c := by
  have hcell := hro.region_cell ha hc hp
  rcases hu with ⟨a', c', i, k, h1, e⟩ | ⟨gd, h1⟩
  · obtain ⟨q1, q2, q3⟩ := h1.lt I
    have h2 := (usable_le ro c').resolve_right (not_not.mpr h1.2.1)
    rw [← e] at h2
    have h3 := (classGeo ro.g h1.2.1).size_ge
    obtain ⟨ha', hc', hp', _⟩ := h1
    obtain ⟨rfl, rfl⟩ := hro.cell_inj ha hc ha' hc' hcell (hro.region_cell ha' hc' (slot_in_region hro ha' hc' q1 q2 (x := p) (by rw [← hp']; unfold inRange; omega)))
    obtain ⟨P, E, F, hi⟩ := I.cls a c ha hc
    have h4 := slab_in_region hc q1
    have h5 := slot_in_slab hc q2
    rw [slotAddr_eq] at hp'
    refine ⟨by rw [offers_eq]; exact e, i, ?_, ?_, ?_, ?_⟩
    · by_contra hn
      have : w.G.loc a c i = .fresh := (hi.bits.fresh i).mpr fun hA => hA.2 hn
      rw [this] at q3; cases q3
    · rw [Nat.add_mul, Nat.one_mul]; exact h4
    · omega
    · rw [Nat.add_mul, Nat.one_mul]; omega
  · have h4 := hro.cell_slab ha hc hcell
    rw [has_not_inSlab hro I h1] at h4; cases h4

theorem GInv.large_guards (hro : RoOk ro) (I : GInv ro w) {p u : Nat} (he : w.G.eff p = none) (hu : UsableIs ro w p u)
    (hn : ∀ a c, a < ro.g.nArena → c < nClasses ro.g → ¬ ro.area a c p) :
    p % 4096 = 0 ∧ 0 < u ∧ 4096 ≤ p ∧ (∀ x, p ≤ x → x < p + (u + 4095) / 4096 * 4096 → w.σ.vm.prot (x / 4096) = .rw) ∧
      (∀ x, p + (u + 4095) / 4096 * 4096 ≤ x → x < p + (u + 4095) / 4096 * 4096 + 4096 → w.σ.vm.prot (x / 4096) = .none) ∧
      ∀ x, p ≤ x + 4096 → x < p → w.σ.vm.prot (x / 4096) = .none := by
  rcases hu with ⟨a, c, j, k, h1, _⟩ | ⟨gd, h1⟩
  · obtain ⟨q1, q2, _⟩ := h1.lt I
    have h3 := (classGeo ro.g h1.2.1).size_ge
    obtain ⟨ha, hc, hp, _⟩ := h1
    exact absurd (slot_in_region hro ha hc q1 q2 (x := p) (by rw [← hp]; unfold inRange; omega)) (hn a c ha hc)
  · have R := I.reg _ h1
    have r1 := R.pmod
    have r2 := R.gmod
    have r3 := R.gpos
    have r4 := R.lo
    have r5 := R.size
    simp only at r1 r2 r3 r4 r5
    show p % 4096 = 0 ∧ 0 < u ∧ 4096 ≤ p ∧ (∀ x, p ≤ x → x < p + pageUp u → _) ∧ (∀ x, p + pageUp u ≤ x → x < p + pageUp u + 4096 → _) ∧ _
    have e1 := pageUp_le_iff (n := u)
    have e2 := pageUp_mod u
    refine ⟨r1, by omega, by omega, fun x k1 k2 => ?_, fun x k1 k2 => ?_, fun x k1 k2 => ?_⟩
    · refine I.regRw _ _ h1 (inPages_of_pageUp R.pmod ?_)
      rw [effSize_eq (r := ⟨p, u, gd⟩) he]; exact ⟨k1, k2⟩
    · refine I.regHi _ _ h1 ?_
      rw [effSize_eq (r := ⟨p, u, gd⟩) he]
      simp only
      generalize pageUp u = U at *
      unfold inPages; omega
    · refine I.regLo _ _ h1 ?_
      simp only
      unfold inPages; omega

end

/-- C17. The page before and the page behind each area can never be accessed. -/
theorem c17_separated (hg : Good g ar) (r : Reach g ro ar calm D h s) {a c x : Nat} (ha : a < g.nArena) (hc : c < nClasses g)
    (hx : (ro.regionStart a c ≤ x + 4096 ∧ x < ro.regionStart a c) ∨
      (ro.regionStart a c + g.classRegionSize ≤ x ∧ x < ro.regionStart a c + g.classRegionSize + 4096)) : s.guarded x := by
  obtain ⟨hro, rfl⟩ := r.roOk hg
  obtain ⟨w, f, _⟩ := r.fits hg
  show s.σ.vm.prot _ = _
  rw [← f.σ]
  exact f.linked.inv.separated hro ha hc hx

/-- C17. A live block lies, with its canary, inside one area, and then offers what the class of this area offers; or it
lies outside of all areas. Since areas are disjoint and fixed, the address alone determines arena and class, and memory
used for one class is never used for another class, another arena or a large block. -/
theorem c17_block_in_area (hg : Good g ar) (r : Reach g ro ar calm D h s) {p u : Nat} (hl : (live h p).isSome) (hu : Usable ro s.σ p u) :
    (∃ a c, a < g.nArena ∧ c < nClasses g ∧ u = g.offers c ∧ ∀ x, p ≤ x → x < p + max 1 (u + g.canarySize) → ro.area a c x) ∨
    (∀ a c, a < g.nArena → c < nClasses g → ∀ x, p ≤ x → x < p + max 1 (u + g.canarySize) → ¬ ro.area a c x) := by
  obtain ⟨hro, rfl⟩ := r.roOk hg
  obtain ⟨w, f, _⟩ := r.fits hg
  rw [← f.σ] at hu
  exact f.linked.inv.block_in_area hro (f.linked.eff p) (hu.is hro f.linked hl)

theorem offers_mono {g : Cfg} {n c : Nat} (hc : c < nClasses g) (h : n ≤ g.offers c) (h0 : 0 < n) (hs : n + g.canarySize ≤ g.maxSlab) :
    g.offers (g.clsOf (n + g.canarySize)) ≤ g.offers c := by
  obtain ⟨_, _, h3⟩ := c14_class_minimal g _ hs
  have hz : g.classSize c ≠ 0 := by unfold Cfg.offers at h; split at h <;> omega
  have h4 : g.classSize (g.clsOf (n + g.canarySize)) ≤ g.classSize c := by
    rw [classSize_clsOf hs]
    refine h3 _ ?_ ?_
    · unfold Cfg.classSize
      rw [List.getD_eq_getElem?_getD]
      have hc : c < (sizeClasses g).length := by rw [show (sizeClasses g).length = nClasses g by unfold sizeClasses nClasses; split <;> rfl]; exact hc
      rw [List.getElem?_eq_getElem hc]
      exact List.getElem_mem hc
    · unfold Cfg.offers at h; rw [if_neg hz] at h; omega
  unfold Cfg.offers
  rw [if_neg hz]; split <;> omega

/-- C17. A thread's small allocations come from its arena, from the class that offers the least space that suffices. -/
theorem c17_malloc_area (hg : Good g ar) (r : Reach g ro ar calm D h s) {t n p : Nat} {chs : Nat → Choice} {s' : Sys}
    (he : ∀ n, Env calm (chs n)) (hn : 0 < n) (hs : n + g.canarySize ≤ g.maxSlab) (hc : s.call ro ar t (.malloc n) chs = .ok (s', .ptr p)) (hp : p ≠ 0) :
    ∃ c, c < nClasses g ∧ ro.area (ar t) c p ∧ n ≤ g.offers c ∧ ∀ c', c' < nClasses g → n ≤ g.offers c' → g.offers c ≤ g.offers c' := by
  obtain ⟨hro, rfl⟩ := r.roOk hg
  have hn64 : n < W64 := by rcases maxSlab_cases ro.g with ⟨_, e⟩ | ⟨_, e⟩ <;> rw [e] at hs <;> omega
  obtain ⟨w, w', C, _⟩ := r.called (c := .malloc n) hg hn64 he hc
  obtain ⟨o, e, h1⟩ := C.res
  obtain rfl := block_retPtr (o := o) (p := p) (by rw [← e]; exact if_neg hp)
  have ea : adjustSizeForCanary ro.g n = n + ro.g.canarySize := by unfold adjustSizeForCanary; rw [if_pos ⟨hn, by omega⟩]
  unfold MallocPost at h1
  rw [ea] at h1
  rcases h1 with ⟨h2, h1⟩ | ⟨h2, _⟩
  · obtain ⟨i, k, h3, _⟩ := h1.small
    obtain ⟨q1, q2, _⟩ := h3.lt C.post.linked.inv
    obtain ⟨ha, hc1, rfl, _⟩ := h3
    have hsz := (classGeo ro.g hc1).size_ge
    refine ⟨_, hc1, slot_in_region hro ha hc1 q1 q2 (by unfold inRange; omega), ?_, fun c' hc' h4 => offers_mono hc' h4 hn hs⟩
    have h4 := le_classSize h2
    unfold Cfg.offers
    rw [if_neg (by omega)]; omega
  · omega

/-- C17. Which blocks are in areas: those whose size, with the canary, does not exceed the largest class (unless their
alignment exceeds the page size). -/
theorem c17_small_or_large (hg : Good g ar) (r : Reach g ro ar calm D h s) {p : Nat} {i : Info} (hl : live h p = some i)
    (ho : ¬ OverAligned g i) (hz : i.size = 0 → i.align = none) :
    (∃ a c, a < g.nArena ∧ c < nClasses g ∧ ro.area a c p) ↔ i.size = 0 ∨ i.size + g.canarySize ≤ g.maxSlab := by
  obtain ⟨hro, rfl⟩ := r.roOk hg
  obtain ⟨w, f, _⟩ := r.fits hg
  have hadj : adjustSizeForCanary ro.g i.size ≤ ro.g.maxSlab ↔ i.size = 0 ∨ i.size + ro.g.canarySize ≤ ro.g.maxSlab := by
    unfold adjustSizeForCanary
    by_cases k : 0 < i.size ∧ i.size ≤ ro.g.maxSlab
    · rw [if_pos k]; omega
    · rw [if_neg k]
      rcases maxSlab_cases ro.g with ⟨_, e⟩ | ⟨_, e⟩ <;> omega
  have hkind : ∃ s, SizeKind ro w p s ∧ (s ≤ ro.g.maxSlab ↔ adjustSizeForCanary ro.g i.size ≤ ro.g.maxSlab) := by
    obtain ⟨h0, h1⟩ := f.linked.sized p i hl
    cases e : i.align with
    | none => rw [e] at h1; exact ⟨_, h1, Iff.rfl⟩
    | some al =>
      rw [e] at h1
      obtain ⟨_, _, ⟨s, h2, _, h3, h4, h5⟩ | ⟨h2, h3, _⟩⟩ := h1
      · exact ⟨s, h5, fun h => by omega, h4⟩
      · rcases hadj.mp h3 with h4 | h4
        · rw [hz h4] at e; cases e
        · exact absurd ⟨⟨al, e, h2⟩, h4⟩ ho
  rw [← hadj]
  obtain ⟨s, h1, h2⟩ := hkind
  rw [← h2]
  rcases h1 with ⟨h1, a, j, k, h3⟩ | ⟨h1, gd, h3⟩
  · refine iff_of_true ?_ h1
    obtain ⟨q1, q2, _⟩ := h3.lt f.linked.inv
    obtain ⟨ha, hc, rfl, _⟩ := h3
    have hsz := (classGeo ro.g hc).size_ge
    exact ⟨a, _, ha, hc, slot_in_region hro ha hc q1 q2 (by unfold inRange; omega)⟩
  · refine iff_of_false ?_ (by omega)
    rintro ⟨a, c, ha, hc, hx⟩
    have h4 := hro.cell_slab ha hc (hro.region_cell ha hc hx)
    rw [has_not_inSlab hro f.linked.inv h3] at h4; cases h4

/-- Blocks of one size of two arenas, of another class, and a large block. -/
example : ∃ h s, Reach (exCfg false false) (exRo false false) (fun t => t % 4) false anyClient h s ∧
    live h exA = some ⟨100, none⟩ ∧ Usable (exRo false false) s.σ exA 104 ∧ (exRo false false).area 0 7 exA ∧
    (∃ p, live h p = some ⟨100, none⟩ ∧ (exRo false false).area 1 7 p) ∧ (∃ p, live h p = some ⟨20, none⟩ ∧ (exRo false false).area 0 2 p) ∧
    live h exBig = some ⟨200000, none⟩ := by
  obtain ⟨h, s, h1, h2⟩ := ex_any (stats := false) (sealed := false) (calm := false)
    [.call 0 (.malloc 100) 0, .call 1 (.malloc 100) 0, .call 0 (.malloc 20) 0, .call 0 (.malloc 200000) exMapAt]
    (fun h s => decide (live h exA = some ⟨100, none⟩) && (decide (usableB (exRo false false) s.σ exA = some 104) &&
      (((blocks h).any fun p => decide (live h p = some ⟨100, none⟩) && (decide ((exRo false false).regionStart 1 7 ≤ p) &&
        decide (p < (exRo false false).regionStart 1 7 + (exRo false false).g.classRegionSize))) &&
      (((blocks h).any fun p => decide (live h p = some ⟨20, none⟩) && (decide ((exRo false false).regionStart 0 2 ≤ p) &&
        decide (p < (exRo false false).regionStart 0 2 + (exRo false false).g.classRegionSize))) && decide (live h exBig = some ⟨200000, none⟩)))))
    (by decide +kernel)
  simp only [Bool.and_eq_true, List.any_eq_true, decide_eq_true_eq] at h2
  obtain ⟨q1, q2, ⟨p3, _, q3⟩, ⟨p4, _, q4⟩, q5⟩ := h2
  exact ⟨h, s, h1, q1, usableB_usable q2, ⟨by decide +kernel, by decide +kernel⟩, ⟨p3, q3.1, q3.2⟩, ⟨p4, q4.1, q4.2⟩, q5⟩

/-! ### C18 -/

/-- C18. An area is divided into slab positions of equal size. Every position that follows `guardSlabsInterval` positions
not of this kind is never accessible (positions are counted from 0, so that these are the positions m with
m mod (interval + 1) = interval). -/
theorem c18_guard_slab (hg : Good g ar) (r : Reach g ro ar calm D h s) {a c m x : Nat} (ha : a < g.nArena) (hc : c < nClasses g)
    (hm : m % (g.guardSlabsInterval + 1) = g.guardSlabsInterval) (hx : ro.area a c x)
    (h1 : ro.regionStart a c + m * g.slabSize c ≤ x) (h2 : x < ro.regionStart a c + (m + 1) * g.slabSize c) : s.guarded x := by
  obtain ⟨hro, rfl⟩ := r.roOk hg
  obtain ⟨w, f, _⟩ := r.fits hg
  show s.σ.vm.prot _ = _
  rw [← f.σ]
  exact f.linked.inv.guard_slab hro ha hc hm hx h1 h2

/-- C18. A live small block, with its canary, lies inside one slab position of its area; this position is not a guard
position and lies completely inside the area. -/
theorem c18_block_in_slab (hg : Good g ar) (r : Reach g ro ar calm D h s) {a c p u : Nat} (ha : a < g.nArena) (hc : c < nClasses g)
    (hl : (live h p).isSome) (hu : Usable ro s.σ p u) (hp : ro.area a c p) :
    ∃ m, m % (g.guardSlabsInterval + 1) ≠ g.guardSlabsInterval ∧ (m + 1) * g.slabSize c ≤ g.classRegionSize ∧
      ro.regionStart a c + m * g.slabSize c ≤ p ∧ p + u + g.canarySize ≤ ro.regionStart a c + (m + 1) * g.slabSize c := by
  obtain ⟨hro, rfl⟩ := r.roOk hg
  obtain ⟨w, f, _⟩ := r.fits hg
  rw [← f.σ] at hu
  exact (f.linked.inv.block_in_slab hro ha hc (hu.is hro f.linked hl) hp).2

/-- The first guard position of class 7 (112 bytes, slabs of 4096 bytes, one guard after every slab in the default
configuration) follows the slab of a live block; the next slab position is used when the first slab is full. -/
example : ∃ h s, Reach (exCfg false false) (exRo false false) (fun t => t % 4) false anyClient h s ∧
    Usable (exRo false false) s.σ exA 104 ∧ (exRo false false).area 0 7 (exA + 4096) ∧ s.access exA ∧ s.guarded (exA + 4096) ∧
    (live h (exA + 8192)).isSome ∧ s.access (exA + 8192) := by
  obtain ⟨h, s, h1, h2⟩ := ex_any (stats := false) (sealed := false) (calm := false)
    (List.replicate 37 (.call 0 (.malloc 100) 0))
    (fun h s => decide (usableB (exRo false false) s.σ exA = some 104) && (decide (s.σ.vm.prot (exA / 4096) = .rw) && (decide (s.σ.vm.prot ((exA + 4096) / 4096) = .none) &&
      ((live h (exA + 8192)).isSome && decide (s.σ.vm.prot ((exA + 8192) / 4096) = .rw)))))
    (by decide +kernel)
  simp only [Bool.and_eq_true, decide_eq_true_eq] at h2
  obtain ⟨q1, q2, q3, q4, q5⟩ := h2
  exact ⟨h, s, h1, usableB_usable q1, ⟨by decide +kernel, by decide +kernel⟩, q2, q3, q4, q5⟩

/-! ### C19 -/

/-- C19. A live large block occupies whole pages; the page before it and the page behind it are reserved and cannot be
accessed. -/
theorem c19_guards (hg : Good g ar) (r : Reach g ro ar calm D h s) {p : Nat} {i : Info} (hl : live h p = some i)
    (hn : ∀ a c, a < g.nArena → c < nClasses g → ¬ ro.area a c p) :
    ∃ e, p % 4096 = 0 ∧ e % 4096 = 0 ∧ p + i.size ≤ e ∧ p < e ∧ (∀ u, Usable ro s.σ p u → e = p + (u + 4095) / 4096 * 4096) ∧
      (∀ x, p ≤ x → x < e → s.access x) ∧ (∀ x, e ≤ x → x < e + 4096 → s.guarded x) ∧ 4096 ≤ p ∧ (∀ x, p ≤ x + 4096 → x < p → s.guarded x) := by
  obtain ⟨hro, rfl⟩ := r.roOk hg
  obtain ⟨w, f, _⟩ := r.fits hg
  obtain ⟨u, h1, h2⟩ := f.linked.usable hl
  obtain ⟨k1, k2, k3, k4, k5, k6⟩ := f.linked.inv.large_guards hro (f.linked.eff p) h1 hn
  rw [f.σ] at k4 k5 k6
  refine ⟨p + (u + 4095) / 4096 * 4096, k1, by omega, by omega, by omega, fun v hv => ?_, k4, k5, k3, k6⟩
  rw [← f.σ] at hv
  rw [(hv.is hro f.linked (by rw [hl]; rfl)).uniq hro f.linked.inv h1]

/-- C19. Guard lengths: any number of pages from 1 up to the number of pages of the block divided by the divisor (but at
least 1), depending on the random number drawn. -/
theorem c19_guard_length (g : Cfg) (size k : Nat) :
    (∃ ch : Choice, guardSize g ch size = k * 4096) ↔ 1 ≤ k ∧ k ≤ max 1 (size / 4096 / g.guardSizeDivisor) := by
  unfold guardSize
  have hp : 0 < max 1 (size / PAGE / g.guardSizeDivisor) := Nat.lt_of_lt_of_le Nat.zero_lt_one (Nat.le_max_left _ _)
  generalize max 1 (size / PAGE / g.guardSizeDivisor) = M at *
  constructor
  · rintro ⟨ch, e⟩
    have := Nat.mod_lt ch.guard hp
    omega
  · rintro ⟨h1, h2⟩
    refine ⟨{ Choice.quiet with guard := k - 1 }, ?_⟩
    simp only
    rw [Nat.mod_eq_of_lt (by omega)]; omega

/-- A large block with its guards. -/
example : ∃ h s, Reach (exCfg false false) (exRo false false) (fun t => t % 4) false anyClient h s ∧
    live h exBig = some ⟨200000, none⟩ ∧ Usable (exRo false false) s.σ exBig 229376 ∧
    (∀ a c, a < (exCfg false false).nArena → c < nClasses (exCfg false false) → ¬ (exRo false false).area a c exBig) ∧
    s.guarded (exBig - 1) ∧ s.access exBig ∧ s.guarded (exBig + 229376) := by
  obtain ⟨h, s, h1, h2⟩ := ex_any (stats := false) (sealed := false) (calm := false)
    [.call 0 (.malloc 200000) exMapAt]
    (fun h s => decide (live h exBig = some ⟨200000, none⟩) && (decide (usableB (exRo false false) s.σ exBig = some 229376) &&
      (decide (∀ a, a < (exCfg false false).nArena → ∀ c, c < nClasses (exCfg false false) → ¬ ((exRo false false).regionStart a c ≤ exBig ∧ exBig < (exRo false false).regionStart a c + (exRo false false).g.classRegionSize)) &&
      (decide (s.σ.vm.prot ((exBig - 1) / 4096) = .none) && (decide (s.σ.vm.prot (exBig / 4096) = .rw) && decide (s.σ.vm.prot ((exBig + 229376) / 4096) = .none))))))
    (by decide +kernel)
  simp only [Bool.and_eq_true, decide_eq_true_eq] at h2
  obtain ⟨q1, q2, q3, q4, q5, q6⟩ := h2
  exact ⟨h, s, h1, q1, usableB_usable q2, fun a c ha hc => q3 a ha c hc, q4, q5, q6⟩

end HM
