import Verif.Props.Quarantine
/-
C29. What `mallinfo` reports.
-/
namespace HM

variable {g : Cfg} {ro : Ro} {ar : Nat → Nat} {calm : Bool} {D : Client} {h : List Ev} {s : Sys} {t : Nat} {chs : Nat → Choice}

/-- Disjoint ranges below `N` have at most `N` bytes altogether. -/
theorem sum_disjoint {ι : Type} [DecidableEq ι] (S : Finset ι) (a n : ι → Nat) (N : Nat) (h : ∀ i ∈ S, a i + n i ≤ N)
    (hd : ∀ i ∈ S, ∀ j ∈ S, ∀ x, inRange (a i) (n i) x → inRange (a j) (n j) x → i = j) : ∑ i ∈ S, n i ≤ N := by
  have h1 : (S.biUnion fun i => Finset.Ico (a i) (a i + n i)).card = ∑ i ∈ S, (Finset.Ico (a i) (a i + n i)).card := by
    refine Finset.card_biUnion fun i hi j hj hij => ?_
    simp only [Function.onFun]
    rw [Finset.disjoint_left]
    intro x h1 h2
    rw [Finset.mem_Ico] at h1 h2
    exact hij (hd i hi j hj x h1 h2)
  have h2 : (S.biUnion fun i => Finset.Ico (a i) (a i + n i)) ⊆ Finset.range N := by
    intro x hx
    rw [Finset.mem_biUnion] at hx
    obtain ⟨i, hi, hx⟩ := hx
    rw [Finset.mem_Ico] at hx
    have := h i hi
    rw [Finset.mem_range]; omega
  have h3 := Finset.card_le_card h2
  rw [h1, Finset.card_range] at h3
  simpa using h3

/-- The slabs in use, as triples of arena, class and position. -/
def slabSet (ro : Ro) (w : World) : Finset (Nat × Nat × Nat) :=
  (Finset.range ro.g.nArena).biUnion fun a => (Finset.range (nClasses ro.g)).biUnion fun c =>
    ((Finset.range (ro.g.metaMax c)).filter fun i => (w.G.loc a c i).isRw = true).image fun i => (a, c, i)

theorem mem_slabSet {w : World} {a c i : Nat} : (a, c, i) ∈ slabSet ro w ↔
    a < ro.g.nArena ∧ c < nClasses ro.g ∧ i < ro.g.metaMax c ∧ (w.G.loc a c i).isRw = true := by
  simp only [slabSet, Finset.mem_biUnion, Finset.mem_range, Finset.mem_image, Finset.mem_filter, Prod.mk.injEq]
  constructor
  · rintro ⟨a', h1, c', h2, i', h3, rfl, rfl, rfl⟩
    exact ⟨h1, h2, h3.1, h3.2⟩
  · rintro ⟨h1, h2, h3, h4⟩
    exact ⟨a, h1, c, h2, i, ⟨h3, h4⟩, rfl, rfl, rfl⟩

theorem sum_slabSet {w : World} : ∑ x ∈ slabSet ro w, ro.g.slabSize x.2.1 = sumAll ro fun a c => ro.g.slabSize c * rwCount ro.g c (w.G.loc a c) := by
  unfold slabSet sumAll
  rw [Finset.sum_biUnion]
  · refine Finset.sum_congr rfl fun a _ => ?_
    rw [Finset.sum_biUnion]
    · refine Finset.sum_congr rfl fun c _ => ?_
      rw [Finset.sum_image fun x _ y _ e => by cases e; rfl]
      simp only
      rw [Finset.sum_const, nsmul_eq_mul, Nat.cast_id]
      unfold rwCount
      rw [Nat.mul_comm]
    · intro c _ c' _ hne
      simp only [Function.onFun]
      rw [Finset.disjoint_left]
      intro x h1 h2
      simp only [Finset.mem_image] at h1 h2
      obtain ⟨_, _, rfl⟩ := h1
      obtain ⟨_, _, e⟩ := h2
      cases e
      exact hne rfl
  · intro a _ a' _ hne
    simp only [Function.onFun]
    rw [Finset.disjoint_left]
    intro x h1 h2
    simp only [Finset.mem_biUnion, Finset.mem_image] at h1 h2
    obtain ⟨_, _, _, _, rfl⟩ := h1
    obtain ⟨_, _, _, _, e⟩ := h2
    cases e
    exact hne rfl

/-- The live small blocks, as arena, class, slab and slot. -/
def slotSet (ro : Ro) (w : World) : Finset (Nat × Nat × Nat × Nat) :=
  (Finset.range ro.g.nArena).biUnion fun a => (Finset.range (nClasses ro.g)).biUnion fun c =>
    ((Finset.range (ro.g.metaMax c) ×ˢ Finset.range (ro.g.slots c)).filter fun ik => (w.σ.sc a c).live ik.1 ik.2 = true).image fun ik => (a, c, ik)

theorem mem_slotSet {w : World} (hi : GInv ro w) {a c i k : Nat} : (a, c, i, k) ∈ slotSet ro w ↔
    IsSmall ro w.σ (slotAddr ro.g (ro.regionStart a c) c i k) a c i k := by
  simp only [slotSet, Finset.mem_biUnion, Finset.mem_range, Finset.mem_image, Finset.mem_filter, Finset.mem_product, Prod.mk.injEq]
  constructor
  · rintro ⟨a', h1, c', h2, ⟨i', k'⟩, h3, rfl, rfl, e⟩
    cases e
    exact ⟨h1, h2, rfl, h3.2⟩
  · intro hs
    have := hs.lt hi
    exact ⟨a, hs.1, c, hs.2.1, (i, k), ⟨⟨this.1, this.2.1⟩, hs.2.2.2⟩, rfl, rfl, rfl⟩

theorem sum_slotSet {w : World} : ∑ x ∈ slotSet ro w, ro.g.slotSize x.2.1 = sumAll ro fun a c => ro.g.slotSize c * liveCount ro.g c (w.σ.sc a c) := by
  unfold slotSet sumAll
  rw [Finset.sum_biUnion]
  · refine Finset.sum_congr rfl fun a _ => ?_
    rw [Finset.sum_biUnion]
    · refine Finset.sum_congr rfl fun c _ => ?_
      rw [Finset.sum_image fun x _ y _ e => by cases e; rfl]
      simp only
      rw [Finset.sum_const, nsmul_eq_mul, Nat.cast_id]
      unfold liveCount
      rw [Nat.mul_comm]
    · intro c _ c' _ hne
      simp only [Function.onFun]
      rw [Finset.disjoint_left]
      intro x h1 h2
      simp only [Finset.mem_image] at h1 h2
      obtain ⟨_, _, rfl⟩ := h1
      obtain ⟨_, _, e⟩ := h2
      cases e
      exact hne rfl
  · intro a _ a' _ hne
    simp only [Function.onFun]
    rw [Finset.disjoint_left]
    intro x h1 h2
    simp only [Finset.mem_biUnion, Finset.mem_image] at h1 h2
    obtain ⟨_, _, _, _, rfl⟩ := h1
    obtain ⟨_, _, _, _, e⟩ := h2
    cases e
    exact hne rfl

/-- The live slots of a class fit into its slabs in use. -/
theorem live_le_rw {w : World} (hi : GInv ro w) {a c : Nat} (ha : a < ro.g.nArena) (hc : c < nClasses ro.g) :
    ro.g.slotSize c * liveCount ro.g c (w.σ.sc a c) ≤ ro.g.slabSize c * rwCount ro.g c (w.G.loc a c) := by
  have geo := classGeo ro.g hc
  have h1 : liveCount ro.g c (w.σ.sc a c) ≤ rwCount ro.g c (w.G.loc a c) * ro.g.slots c := by
    unfold liveCount rwCount
    have e : ((Finset.range (ro.g.metaMax c)).filter fun i => (w.G.loc a c i).isRw = true).card * ro.g.slots c =
        (((Finset.range (ro.g.metaMax c)).filter fun i => (w.G.loc a c i).isRw = true) ×ˢ Finset.range (ro.g.slots c)).card := by
      rw [Finset.card_product, Finset.card_range]
    rw [e]
    refine Finset.card_le_card fun x hx => ?_
    simp only [Finset.mem_filter, Finset.mem_product, Finset.mem_range] at hx ⊢
    have := IsSmall.lt hi ⟨ha, hc, rfl, hx.2⟩
    exact ⟨⟨hx.1.1, this.2.2⟩, hx.1.2⟩
  calc ro.g.slotSize c * liveCount ro.g c (w.σ.sc a c) ≤ ro.g.slotSize c * (rwCount ro.g c (w.G.loc a c) * ro.g.slots c) := Nat.mul_le_mul_left _ h1
    _ = (ro.g.slots c * ro.g.slotSize c) * rwCount ro.g c (w.G.loc a c) := by ring
    _ ≤ _ := Nat.mul_le_mul_right _ geo.fits

/-- Slabs and regions do not overlap. -/
theorem mapped_lt (hro : RoOk ro) {L : Nat → Option Info} {w : World} (l : Linked ro L w) :
    regionBytes w.σ.rt + ∑ x ∈ slabSet ro w, ro.g.slabSize x.2.1 ≤ 2 ^ 63 := by
  have h := sum_disjoint (w.σ.rt.regs.disjSum (slabSet ro w))
    (Sum.elim (fun r => r.p) fun x => slabAddr (ro.regionStart x.1 x.2.1) (ro.g.slabSize x.2.1) x.2.2)
    (Sum.elim (fun r => r.size) fun x => ro.g.slabSize x.2.1) (2 ^ 63) ?_ ?_
  · rw [Finset.sum_disjSum] at h
    exact h
  · intro i hi
    rw [Finset.mem_disjSum] at hi
    rcases hi with ⟨r, hr, rfl⟩ | ⟨⟨a, c, i⟩, hx, rfl⟩
    · have R := l.inv.reg r ((RegTable.mem_regs _ _).mp hr)
      have := R.hi
      have : r.size ≤ pageUp r.size := by unfold pageUp; omega
      simp only [Sum.elim_inl]
      omega
    · obtain ⟨ha, hc, hi, _⟩ := mem_slabSet.mp hx
      have h1 := slab_in_region (g := ro.g) hc hi
      have h2 := hro.region_in_cell ha hc
      have h3 := hro.cell_hi ha hc
      have h4 := hro.hi
      simp only [Sum.elim_inr, slabAddr]
      omega
  · have reg : ∀ r, r ∈ w.σ.rt.regs → ∀ x, inRange r.p r.size x → w.G.own (x / PAGE) = .reg r.p := fun r hr x hx => by
      have hr := (RegTable.mem_regs _ _).mp hr
      refine l.inv.reg_body hr (inPages_of_pageUp (l.inv.reg _ hr).pmod ?_)
      have : w.G.effSize r = r.size := by unfold Gh.effSize; rw [l.eff]; rfl
      unfold inRange at *
      rw [this]
      have : r.size ≤ pageUp r.size := by unfold pageUp; omega
      omega
    have slab : ∀ a c i, (a, c, i) ∈ slabSet ro w → ∀ x, inRange (slabAddr (ro.regionStart a c) (ro.g.slabSize c) i) (ro.g.slabSize c) x →
        w.G.own (x / PAGE) = .slab := fun a c i hx x hx' => by
      obtain ⟨ha, hc, hi, _⟩ := mem_slabSet.mp hx
      exact l.inv.class_own hro ha hc (slab_of_slab hc hi hx')
    intro i hi j hj x hx hx'
    rw [Finset.mem_disjSum] at hi hj
    rcases hi with ⟨r, hr, rfl⟩ | ⟨⟨a, c, i⟩, hi, rfl⟩ <;> rcases hj with ⟨r', hr', rfl⟩ | ⟨⟨a', c', i'⟩, hj, rfl⟩ <;>
      simp only [Sum.elim_inl, Sum.elim_inr] at hx hx'
    · have e1 := reg r hr x hx
      have e2 := reg r' hr' x hx'
      rw [e1] at e2
      exact congrArg _ (l.inv.has_unique ((RegTable.mem_regs _ _).mp hr) ((RegTable.mem_regs _ _).mp hr') (by injection e2))
    · have e1 := reg r hr x hx
      rw [slab _ _ _ hj x hx'] at e1
      cases e1
    · have e1 := reg r' hr' x hx'
      rw [slab _ _ _ hi x hx] at e1
      cases e1
    · obtain ⟨ha, hc, hi, _⟩ := mem_slabSet.mp hi
      obtain ⟨ha', hc', hi', _⟩ := mem_slabSet.mp hj
      obtain ⟨rfl, rfl⟩ := classMem_inj hro ha hc ha' hc' (slab_of_slab hc hi hx) (slab_of_slab hc' hi' hx')
      have := slab_disjoint hc hx hx'
      rw [this]

/-- Without alignments above a page, every large block is counted. -/
theorem untr_zero (hal : ∀ t c x, Ev.call t c x ∈ h → ∀ i al, c.request = some i → i.align = some al → al ≤ 4096) : total (evUntr ro) h = 0 := by
  induction h with
  | nil => rfl
  | cons e h ih =>
    unfold total
    rw [ih fun t c x hm => hal t c x (List.mem_cons_of_mem _ hm)]
    cases e with
    | call t c x =>
      unfold evUntr
      simp only
      cases e : c.request with
      | none => rfl
      | some i =>
        simp only
        rw [if_neg fun hh => ?_]
        obtain ⟨⟨al, h1, h2⟩, _⟩ := hh
        have := hal t c x (List.mem_cons_self ..) i al e h1
        omega
    | _ => rfl

/-- What `mallinfo` reports, in terms of the state. -/
theorem Linked.mallinfo_is {L : Nat → Option Info} {w w' : World} {t a : Nat} {tl tl' : Tl} {m : MallInfo} (hro : RoOk ro) (l : Linked ro L w)
    (hst : ro.g.stats = true) (hz : w.G.untracked = 0) (C : CallPost ro t a .mallinfo (w.lend t) tl (.info m) tl' w') :
    m.uordblks = regionBytes w.σ.rt + ∑ x ∈ slotSet ro w, ro.g.slotSize x.2.1 ∧
      m.hblkhd = regionBytes w.σ.rt + ∑ x ∈ slabSet ro w, ro.g.slabSize x.2.1 ∧ m.uordblks ≤ m.hblkhd ∧ m.fordblks = m.hblkhd - m.uordblks ∧
      m.usmblks = m.hblkhd := by
  obtain ⟨i, e1, _, _, hi⟩ := C
  cases e1
  obtain ⟨q1, q2, q3, q4⟩ := hi hst
  have b := mapped_lt hro l
  rw [sum_slabSet] at b
  have hle : (sumAll ro fun a c => ro.g.slotSize c * liveCount ro.g c (w.σ.sc a c)) ≤ sumAll ro fun a c => ro.g.slabSize c * rwCount ro.g c (w.G.loc a c) := by
    unfold sumAll
    exact Finset.sum_le_sum fun a ha => Finset.sum_le_sum fun c hc => live_le_rw l.inv (Finset.mem_range.mp ha) (Finset.mem_range.mp hc)
  have hlarge : w.σ.largeAllocated = regionBytes w.σ.rt := by
    obtain ⟨k1, k2⟩ := l.stat.large hst
    rw [hz, Nat.add_zero, Nat.mod_eq_of_lt k1, Nat.mod_eq_of_lt (by omega)] at k2
    exact k2
  have each : ∀ a c, a ∈ Finset.range ro.g.nArena → c ∈ Finset.range (nClasses ro.g) →
      (w.σ.sc a c).slabAllocated = ro.g.slabSize c * rwCount ro.g c (w.G.loc a c) ∧ (w.σ.sc a c).allocated = ro.g.slotSize c * liveCount ro.g c (w.σ.sc a c) := by
    intro a c ha hc
    have k1 := l.stat.small hst a c (Finset.mem_range.mp ha) (Finset.mem_range.mp hc)
    have k2 := live_le_rw l.inv (Finset.mem_range.mp ha) (Finset.mem_range.mp hc)
    have k3 : ro.g.slabSize c * rwCount ro.g c (w.G.loc a c) ≤ sumAll ro fun a c => ro.g.slabSize c * rwCount ro.g c (w.G.loc a c) := by
      unfold sumAll
      refine le_trans ?_ (Finset.single_le_sum (f := fun a => ∑ c ∈ Finset.range (nClasses ro.g), ro.g.slabSize c * rwCount ro.g c (w.G.loc a c)) (fun _ _ => Nat.zero_le _) ha)
      exact Finset.single_le_sum (f := fun c => ro.g.slabSize c * rwCount ro.g c (w.G.loc a c)) (fun _ _ => Nat.zero_le _) hc
    refine ⟨?_, ?_⟩
    · rw [k1.1.2]; exact Nat.mod_eq_of_lt (by omega)
    · rw [k1.1.1]; exact Nat.mod_eq_of_lt (by omega)
  have s1 : (sumAll ro fun a c => (w.σ.sc a c).slabAllocated) = sumAll ro fun a c => ro.g.slabSize c * rwCount ro.g c (w.G.loc a c) :=
    Finset.sum_congr rfl fun a ha => Finset.sum_congr rfl fun c hc => (each a c ha hc).1
  have s2 : (sumAll ro fun a c => (w.σ.sc a c).allocated) = sumAll ro fun a c => ro.g.slotSize c * liveCount ro.g c (w.σ.sc a c) :=
    Finset.sum_congr rfl fun a ha => Finset.sum_congr rfl fun c hc => (each a c ha hc).2
  change m.hblkhd = (w.σ.largeAllocated + sumAll ro fun a c => (w.σ.sc a c).slabAllocated) % W64 at q1
  change m.uordblks = (w.σ.largeAllocated + sumAll ro fun a c => (w.σ.sc a c).allocated) % W64 at q2
  rw [s1, hlarge, Nat.mod_eq_of_lt (by omega)] at q1
  rw [s2, hlarge, Nat.mod_eq_of_lt (by omega)] at q2
  refine ⟨by rw [sum_slotSet]; exact q2, by rw [sum_slabSet]; exact q1, by omega, ?_, q4⟩
  rw [q3]
  unfold sub64
  rw [q1, q2]
  omega

theorem mallinfo_is (hg : Good g ar) (r : Reach g ro ar calm D h s) (he : ∀ n, Env calm (chs n)) (hst : g.stats = true)
    (hal : ∀ t c x, Ev.call t c x ∈ h → ∀ i al, c.request = some i → i.align = some al → al ≤ 4096) {s' : Sys} {m : MallInfo}
    (hc : s.call ro ar t .mallinfo chs = .ok (s', .info m)) :
    ∃ w, RoOk ro ∧ ro.g = g ∧ Fits ro calm h s w ∧ m.uordblks = regionBytes w.σ.rt + ∑ x ∈ slotSet ro w, ro.g.slotSize x.2.1 ∧
      m.hblkhd = regionBytes w.σ.rt + ∑ x ∈ slabSet ro w, ro.g.slabSize x.2.1 ∧ m.uordblks ≤ m.hblkhd ∧ m.fordblks = m.hblkhd - m.uordblks ∧
      m.usmblks = m.hblkhd := by
  obtain ⟨hro, rfl⟩ := r.roOk hg
  obtain ⟨w, w', C, hun, _⟩ := r.called hg (c := .mallinfo) trivial he hc
  have hz : w.G.untracked = 0 := by
    have h0 := untr_zero (ro := ro) hal
    omega
  exact ⟨w, hro, rfl, C.pre, C.pre.linked.mallinfo_is hro hst hz C.res⟩

theorem Linked.allocated {L : Nat → Option Info} {w : World} (hro : RoOk ro) (l : Linked ro L w) {u : Nat}
    (h1 : u = regionBytes w.σ.rt + ∑ x ∈ slotSet ro w, ro.g.slotSize x.2.1) :
    ∃ (B : Finset Nat) (size : Nat → Nat), (∀ p, p ∈ B ↔ (L p).isSome) ∧
      (∀ p ∈ B, (∃ a c, a < ro.g.nArena ∧ c < nClasses ro.g ∧ ro.area a c p ∧ size p = ro.g.slotSize c) ∨
        (¬ (ro.slabStart ≤ p ∧ p < ro.slabEnd) ∧ Usable ro w.σ p (size p))) ∧
      u = ∑ p ∈ B, size p := by
  have key : ∀ p, ∃ n, (∀ a c i k, IsSmall ro w.σ p a c i k → n = ro.g.slotSize c) ∧ ∀ z gd, w.σ.rt.Has ⟨p, z, gd⟩ → n = z := by
    intro p
    by_cases hs : ∃ a c i k, IsSmall ro w.σ p a c i k
    · obtain ⟨a, c, i, k, hs⟩ := hs
      refine ⟨ro.g.slotSize c, fun a' c' i' k' hs' => ?_, fun z gd hz => ?_⟩
      · rw [(hs.uniq hro l.inv hs').2.1]
      · have e1 := hs.inSlab hro l.inv
        rw [has_not_inSlab hro l.inv hz] at e1
        cases e1
    · by_cases hr : ∃ z gd, w.σ.rt.Has ⟨p, z, gd⟩
      · obtain ⟨z, gd, hr⟩ := hr
        refine ⟨z, fun a c i k hk => absurd ⟨a, c, i, k, hk⟩ hs, fun z' gd' hz' => ?_⟩
        have := l.inv.has_unique hr hz' rfl
        simp only [RegionMeta.mk.injEq] at this
        exact this.2.1
      · exact ⟨0, fun a c i k hk => absurd ⟨a, c, i, k, hk⟩ hs, fun z gd hz => absurd ⟨z, gd, hz⟩ hr⟩
  choose size k1 k2 using key
  refine ⟨w.σ.rt.regs.image (fun r => r.p) ∪ (slotSet ro w).image (fun x => slotAddr ro.g (ro.regionStart x.1 x.2.1) x.2.1 x.2.2.1 x.2.2.2), size, fun p => ?_, fun p hp => ?_, ?_⟩
  · rw [← l.blk p, l.inv.blk p, Finset.mem_union, Finset.mem_image, Finset.mem_image, or_comm]
    refine or_congr ⟨?_, ?_⟩ ⟨?_, ?_⟩
    · rintro ⟨⟨a, c, i, k⟩, q1, rfl⟩
      exact ⟨a, c, i, k, (mem_slotSet l.inv).mp q1⟩
    · rintro ⟨a, c, i, k, q1⟩
      have q2 := q1.2.2.1
      subst q2
      exact ⟨(a, c, i, k), (mem_slotSet l.inv).mpr q1, rfl⟩
    · rintro ⟨⟨q, z, gd⟩, q1, rfl⟩
      exact ⟨z, gd, (RegTable.mem_regs _ _).mp q1⟩
    · rintro ⟨z, gd, q1⟩
      exact ⟨⟨p, z, gd⟩, (RegTable.mem_regs _ _).mpr q1, rfl⟩
  · rw [Finset.mem_union, Finset.mem_image, Finset.mem_image] at hp
    rcases hp with ⟨⟨q, z, gd⟩, q1, rfl⟩ | ⟨⟨a, c, i, k⟩, q1, rfl⟩
    · have q1 := (RegTable.mem_regs _ _).mp q1
      have q2 : (L q).isSome = true := by rw [← l.blk q, l.inv.blk q]; exact Or.inr ⟨z, gd, q1⟩
      refine Or.inr ⟨fun hh => ?_, ?_⟩
      · have := has_not_inSlab hro l.inv q1
        unfold Ro.inSlab at this
        simp only [hh.1, hh.2, decide_true, Bool.and_self] at this
        cases this
      · refine usable_complete hro l q2 (Or.inr ⟨gd, ?_⟩) ?_
        · rw [k2 q z gd q1]; exact q1
        · rintro ⟨_, a, c, i, k, hs, _⟩
          have e1 := hs.inSlab hro l.inv
          rw [has_not_inSlab hro l.inv q1] at e1
          cases e1
    · have q1 := (mem_slotSet l.inv).mp q1
      have := q1.lt l.inv
      exact Or.inl ⟨a, c, q1.1, q1.2.1, classMem_region q1.2.1 (slotAddr_classMem q1.2.1 this.1 this.2.1), k1 _ a c i k q1⟩
  · rw [h1, Finset.sum_union, Finset.sum_image, Finset.sum_image]
    · congr 1
      · exact Finset.sum_congr rfl fun ⟨q, z, gd⟩ hr => (k2 q z gd ((RegTable.mem_regs _ _).mp hr)).symm
      · exact Finset.sum_congr rfl fun ⟨a, c, i, k⟩ hr => (k1 _ a c i k ((mem_slotSet l.inv).mp hr)).symm
    · rintro ⟨a, c, i, k⟩ hx ⟨a', c', i', k'⟩ hy e
      have hx := (mem_slotSet l.inv).mp hx
      have hy := (mem_slotSet l.inv).mp hy
      simp only at e
      rw [e] at hx
      obtain ⟨rfl, rfl, rfl, rfl⟩ := hx.uniq hro l.inv hy
      rfl
    · intro r1 hx r2 hy e
      exact l.inv.has_unique ((RegTable.mem_regs _ _).mp hx) ((RegTable.mem_regs _ _).mp hy) e
    · rw [Finset.disjoint_left]
      intro p hx hy
      rw [Finset.mem_image] at hx hy
      obtain ⟨⟨q, z, gd⟩, q1, rfl⟩ := hx
      obtain ⟨⟨a, c, i, k⟩, q2, e⟩ := hy
      have q2 := (mem_slotSet l.inv).mp q2
      simp only at e
      rw [e] at q2
      have e1 := q2.inSlab hro l.inv
      rw [has_not_inSlab hro l.inv ((RegTable.mem_regs _ _).mp q1)] at e1
      cases e1

/-- C29. Suppose no allocation so far asked for an alignment of more than a page. Then with statistics enabled, the number of
allocated bytes that `mallinfo` reports is exactly the sum of the sizes of all live blocks. The size of a small block is that
of its class (16 for zero byte blocks), and the size of a large block is what `malloc_usable_size` returns. -/
theorem c29_allocated_partial (hg : Good g ar) (r : Reach g ro ar calm D h s) (he : ∀ n, Env calm (chs n)) (hst : g.stats = true)
    (hal : ∀ t c x, Ev.call t c x ∈ h → ∀ i al, c.request = some i → i.align = some al → al ≤ 4096) {s' : Sys} {m : MallInfo}
    (hc : s.call ro ar t .mallinfo chs = .ok (s', .info m)) :
    ∃ (B : Finset Nat) (size : Nat → Nat), (∀ p, p ∈ B ↔ (live h p).isSome) ∧
      (∀ p ∈ B, (∃ a c, a < g.nArena ∧ c < nClasses g ∧ ro.area a c p ∧ size p = g.slotSize c) ∨
        (¬ (ro.slabStart ≤ p ∧ p < ro.slabEnd) ∧ Usable ro s.σ p (size p))) ∧
      m.uordblks = ∑ p ∈ B, size p := by
  obtain ⟨w, hro, rfl, f, h1, _⟩ := mallinfo_is hg r he hst hal hc
  rw [← f.σ]
  exact f.linked.allocated hro h1

theorem Linked.mapped {L : Nat → Option Info} {w : World} (hro : RoOk ro) (l : Linked ro L w) {u : Nat}
    (h2 : u = regionBytes w.σ.rt + ∑ x ∈ slabSet ro w, ro.g.slabSize x.2.1) :
    ∃ (B : Finset Nat) (size : Nat → Nat) (S : Finset (Nat × Nat × Nat)),
      (∀ p, p ∈ B ↔ (L p).isSome ∧ ¬ (ro.slabStart ≤ p ∧ p < ro.slabEnd)) ∧ (∀ p ∈ B, Usable ro w.σ p (size p)) ∧
      (∀ a c i, (a, c, i) ∈ S → a < ro.g.nArena ∧ c < nClasses ro.g) ∧
      (∀ a c x, a < ro.g.nArena → 0 < c → c < nClasses ro.g → ro.area a c x → (w.σ.vm.prot (x / 4096) = .rw ↔ (a, c, ro.slabNo a c x) ∈ S)) ∧
      (∀ a c p, a < ro.g.nArena → c < nClasses ro.g → ro.area a c p → (L p).isSome → (a, c, ro.slabNo a c p) ∈ S) ∧
      u = ∑ p ∈ B, size p + ∑ x ∈ S, ro.g.slabSize x.2.1 := by
  have key : ∀ p, ∃ n, ∀ z gd, w.σ.rt.Has ⟨p, z, gd⟩ → n = z := by
    intro p
    by_cases hr : ∃ z gd, w.σ.rt.Has ⟨p, z, gd⟩
    · obtain ⟨z, gd, hr⟩ := hr
      refine ⟨z, fun z' gd' hz' => ?_⟩
      have := l.inv.has_unique hr hz' rfl
      simp only [RegionMeta.mk.injEq] at this
      exact this.2.1
    · exact ⟨0, fun z gd hz => absurd ⟨z, gd, hz⟩ hr⟩
  choose size k2 using key
  have hlive : ∀ q z gd, w.σ.rt.Has ⟨q, z, gd⟩ → (L q).isSome = true := fun q z gd q1 => by
    rw [← l.blk q, l.inv.blk q]; exact Or.inr ⟨z, gd, q1⟩
  refine ⟨w.σ.rt.regs.image (fun r => r.p), size, slabSet ro w, fun p => ?_, fun p hp => ?_, fun a c i hm => ?_, fun a c x ha h0 hc hx => ?_,
    fun a c p ha hc hp hl => ?_, ?_⟩
  · rw [Finset.mem_image]
    constructor
    · rintro ⟨⟨q, z, gd⟩, q1, rfl⟩
      have q1 := (RegTable.mem_regs _ _).mp q1
      refine ⟨hlive q z gd q1, fun hh => ?_⟩
      have := has_not_inSlab hro l.inv q1
      unfold Ro.inSlab at this
      simp only [hh.1, hh.2, decide_true, Bool.and_self] at this
      cases this
    · rintro ⟨q1, q2⟩
      rw [← l.blk p, l.inv.blk p] at q1
      rcases q1 with ⟨a, c, i, k, hs⟩ | ⟨z, gd, hz⟩
      · have := hs.inSlab hro l.inv
        unfold Ro.inSlab at this
        simp only [Bool.and_eq_true, decide_eq_true_eq] at this
        exact absurd ⟨this.2, this.1⟩ q2
      · exact ⟨_, (RegTable.mem_regs _ _).mpr hz, rfl⟩
  · rw [Finset.mem_image] at hp
    obtain ⟨⟨q, z, gd⟩, q1, rfl⟩ := hp
    have q1 := (RegTable.mem_regs _ _).mp q1
    refine usable_complete hro l (hlive q z gd q1) (Or.inr ⟨gd, ?_⟩) ?_
    · rw [k2 q z gd q1]; exact q1
    · rintro ⟨_, a, c, i, k, hs, _⟩
      have e1 := hs.inSlab hro l.inv
      rw [has_not_inSlab hro l.inv q1] at e1
      cases e1
  · have := mem_slabSet.mp hm
    exact ⟨this.1, this.2.1⟩
  · constructor
    · intro hp
      have := access_loc hro l ha hc hx hp
      exact mem_slabSet.mpr ⟨ha, hc, this.1, this.2.1⟩
    · intro hm
      obtain ⟨_, _, q1, q2⟩ := mem_slabSet.mp hm
      have geo := classGeo ro.g hc
      refine (l.inv.clsVm a c ha hc).rw _ x q2 (fun e => by have := geo.zero_iff.mpr e; omega) ?_
      unfold Ro.area at hx
      unfold inRange slabAddr Ro.slabNo
      have h1 := Nat.div_add_mod (x - ro.regionStart a c) (ro.g.slabSize c)
      have h2 := Nat.mod_lt (x - ro.regionStart a c) (y := ro.g.slabSize c) (by have := geo.slab_ge; omega)
      rw [Nat.mul_comm] at h1
      omega
  · rw [← l.blk p, l.inv.blk p] at hl
    rcases hl with ⟨a', c', i, k, hs⟩ | ⟨z, gd, hz⟩
    · have q := hs.lt l.inv
      obtain ⟨ha', hc', rfl, hs⟩ := hs
      obtain ⟨rfl, rfl⟩ := hro.cell_inj ha hc ha' hc' (hro.region_cell ha hc hp)
        (hro.region_cell ha' hc' (classMem_region hc' (slotAddr_classMem hc' q.1 q.2.1)))
      rw [slabNo_slot hc q.2.1]
      exact mem_slabSet.mpr ⟨ha, hc, q.1, q.2.2⟩
    · have := has_not_inSlab hro l.inv hz
      rw [hro.cell_slab ha hc (hro.region_cell ha hc hp)] at this
      cases this
  · rw [h2, Finset.sum_image]
    · congr 1
      exact Finset.sum_congr rfl fun ⟨q, z, gd⟩ hr => (k2 q z gd ((RegTable.mem_regs _ _).mp hr)).symm
    · intro r1 hx r2 hy e
      exact l.inv.has_unique ((RegTable.mem_regs _ _).mp hx) ((RegTable.mem_regs _ _).mp hy) e

/-- C29. Under the same assumption, the number of mapped bytes is what is allocated in large blocks, plus the sizes of the slabs
in use. In all classes but that for zero byte blocks, these are exactly the accessible slabs; they contain all small blocks.
Hence mapped bytes are never less than allocated bytes, and the reported difference is exact. -/
theorem c29_mapped_partial (hg : Good g ar) (r : Reach g ro ar calm D h s) (he : ∀ n, Env calm (chs n)) (hst : g.stats = true)
    (hal : ∀ t c x, Ev.call t c x ∈ h → ∀ i al, c.request = some i → i.align = some al → al ≤ 4096) {s' : Sys} {m : MallInfo}
    (hc : s.call ro ar t .mallinfo chs = .ok (s', .info m)) :
    m.uordblks ≤ m.hblkhd ∧ m.fordblks = m.hblkhd - m.uordblks ∧ m.usmblks = m.hblkhd ∧
    ∃ (B : Finset Nat) (size : Nat → Nat) (S : Finset (Nat × Nat × Nat)),
      (∀ p, p ∈ B ↔ (live h p).isSome ∧ ¬ (ro.slabStart ≤ p ∧ p < ro.slabEnd)) ∧ (∀ p ∈ B, Usable ro s.σ p (size p)) ∧
      (∀ a c i, (a, c, i) ∈ S → a < g.nArena ∧ c < nClasses g) ∧
      (∀ a c x, a < g.nArena → 0 < c → c < nClasses g → ro.area a c x → (s.access x ↔ (a, c, ro.slabNo a c x) ∈ S)) ∧
      (∀ a c p, a < g.nArena → c < nClasses g → ro.area a c p → (live h p).isSome → (a, c, ro.slabNo a c p) ∈ S) ∧
      m.hblkhd = ∑ p ∈ B, size p + ∑ x ∈ S, g.slabSize x.2.1 := by
  obtain ⟨w, hro, rfl, f, _, h2, h3, h4, h5⟩ := mallinfo_is hg r he hst hal hc
  refine ⟨h3, h4, h5, ?_⟩
  unfold Sys.access
  rw [← f.σ]
  exact f.linked.mapped hro h2

/-- A history with three live blocks of different kinds, and what `mallinfo` then reports. -/
example : ∃ h s, Reach (exCfg true false) (exRo true false) (fun t => t % 4) true anyClient h s ∧
    (∀ t c x, Ev.call t c x ∈ h → ∀ i al, c.request = some i → i.align = some al → al ≤ 4096) ∧
    ∃ chs s' m, (∀ n, Env true (chs n)) ∧ s.call (exRo true false) (fun t => t % 4) 0 .mallinfo chs = .ok (s', .info m) ∧
      m.uordblks = 112 + 16 + 229376 ∧ m.hblkhd = 4096 + 4096 + 229376 := by
  obtain ⟨h, s, h1, h2⟩ := ex_any (stats := true) (sealed := false) (calm := true)
    [.call 0 (.malloc 100) 0, .call 1 (.malloc 0) 0, .call 0 (.malloc 200000) exMapAt]
    (fun h s => (match h with | [.call _ (.malloc _) _, .call _ (.malloc _) _, .call _ (.malloc _) _] => true | _ => false) &&
      match s.call (exRo true false) (fun t => t % 4) 0 .mallinfo (fun _ => exAt 0) with
      | .ok (_, .info m) => decide (m.uordblks = 112 + 16 + 229376 ∧ m.hblkhd = 4096 + 4096 + 229376)
      | _ => false)
    (by decide +kernel)
  simp only [Bool.and_eq_true] at h2
  obtain ⟨q1, q2⟩ := h2
  refine ⟨h, s, h1, ?_, fun _ => exAt 0, ?_⟩
  · split at q1
    · intro t c x hm i al hr ha
      simp only [List.mem_cons, Ev.call.injEq, List.not_mem_nil, or_false] at hm
      rcases hm with ⟨_, rfl, _⟩ | ⟨_, rfl, _⟩ | ⟨_, rfl, _⟩ <;> (cases hr; cases ha)
    · cases q1
  · split at q2
    · rename_i s1 m e
      rw [decide_eq_true_eq] at q2
      exact ⟨s1, m, fun _ => exAt_env true 0, e, q2⟩
    · cases q2

/-- C29 fails for alignments above a page: after a block with such an alignment is allocated and freed, no block is live, but
`mallinfo` reports almost 2^64 allocated bytes (h_malloc.c:1401-1451 does not count the block, h_malloc.c:1378-1399 subtracts
it). -/
theorem c29_drift : ∃ h s, Reach (exCfg true false) (exRo true false) (fun t => t % 4) true anyClient h s ∧ (∀ p, live h p = none) ∧
    ∃ chs s' m, (∀ n, Env true (chs n)) ∧ s.call (exRo true false) (fun t => t % 4) 0 .mallinfo chs = .ok (s', .info m) ∧ m.uordblks = 2 ^ 64 - 229376 := by
  obtain ⟨h, s, h1, h2⟩ := ex_any (stats := true) (sealed := false) (calm := true)
    [.call 0 (.alignedAlloc 8192 200000) exMapAt, .call 0 (.free 17592186052608) 0]
    (fun h s => (match h with | [.call _ (.free p) _, .call _ (.alignedAlloc _ _) (.ptr q)] => decide (p = q) | _ => false) &&
      match s.call (exRo true false) (fun t => t % 4) 0 .mallinfo (fun _ => exAt 0) with
      | .ok (_, .info m) => decide (m.uordblks = 2 ^ 64 - 229376)
      | _ => false)
    (by decide +kernel)
  simp only [Bool.and_eq_true] at h2
  obtain ⟨q1, q2⟩ := h2
  refine ⟨h, s, h1, fun x => ?_, fun _ => exAt 0, ?_⟩
  · split at q1
    · rw [decide_eq_true_eq] at q1
      subst q1
      rename_i p _ _ _ _
      simp only [live, liveStep, Call.request, Ret.block]
      by_cases k : x = p
      · rw [if_pos k]
      · rw [if_neg k]
        by_cases k0 : p = 0
        · rw [if_pos k0]
        · rw [if_neg k0]; exact if_neg k
    · cases q1
  · split at q2
    · rename_i s1 m e
      rw [decide_eq_true_eq] at q2
      exact ⟨s1, m, fun _ => exAt_env true 0, e, q2⟩
    · cases q2

end HM
