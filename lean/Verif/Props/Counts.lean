import Verif.Props.Stats
/-
C52. How many allocations and deallocations there have been.
-/
namespace HM

variable {g : Cfg} {ro : Ro} {ar : Nat → Nat} {calm : Bool} {D : Client} {h : List Ev} {s : Sys}

/-- The event creates a block in the area of class `c` of arena `a`. -/
def Ev.creates (ro : Ro) (a c : Nat) (e : Ev) : Bool :=
  match e.created with
  | some q => decide (ro.regionStart a c ≤ q) && decide (q < ro.regionStart a c + ro.g.classRegionSize)
  | none => false

theorem Ev.creates_iff {a c : Nat} {e : Ev} : e.creates ro a c = true ↔ ∃ q, e.created = some q ∧ ro.area a c q := by
  unfold Ev.creates Ro.area
  cases e.created <;> simp

theorem Ev.frees_iff {a c : Nat} {e : Ev} : e.frees ro a c = true ↔ ∃ q, e.released = some q ∧ ro.area a c q := by
  unfold Ev.frees Ro.area
  cases e.released <;> simp

theorem Fits.live_ne_zero (hro : RoOk ro) {w : World} (f : Fits ro calm h s w) {p : Nat} (hl : (live h p).isSome = true) : p ≠ 0 := by
  rintro rfl
  have := blk_zero hro f.linked.inv
  exact absurd this ((f.linked.blk 0).mpr hl)

/-- A small block lies in the area of its class. -/
theorem IsSmall.area {w : World} (hi : GInv ro w) {p a c i k : Nat} (hs : IsSmall ro w.σ p a c i k) : ro.area a c p := by
  have h1 := hs.lt hi
  have := classMem_region hs.2.1 (slotAddr_classMem (a := a) hs.2.1 h1.1 h1.2.1)
  rw [← hs.2.2.1] at this
  exact this

/-- A block in the area of a class is a small block of this class. -/
theorem Linked.small (hro : RoOk ro) {L : Nat → Option Info} {w : World} (l : Linked ro L w) {p a c : Nat} (ha : a < ro.g.nArena) (hc : c < nClasses ro.g)
    (hp : ro.area a c p) (hl : (L p).isSome = true) : ∃ i k, IsSmall ro w.σ p a c i k := by
  rcases (l.inv.blk p).mp ((l.blk p).mpr hl) with ⟨a', c', i, k, hs⟩ | ⟨z, gd, hz⟩
  · have h1 := hs.area l.inv
    obtain ⟨rfl, rfl⟩ := hro.cell_inj ha hc hs.1 hs.2.1 (hro.region_cell ha hc hp) (hro.region_cell hs.1 hs.2.1 h1)
    exact ⟨i, k, hs⟩
  · have h1 := has_not_inSlab hro l.inv hz
    rw [hro.cell_slab ha hc (hro.region_cell ha hc hp)] at h1
    cases h1

theorem Fits.small (hro : RoOk ro) {w : World} (f : Fits ro calm h s w) {p a c : Nat} (ha : a < ro.g.nArena) (hc : c < nClasses ro.g)
    (hp : ro.area a c p) (hl : (live h p).isSome = true) : ∃ i k, IsSmall ro w.σ p a c i k := f.linked.small hro ha hc hp hl

/-- What is live after an event: what was live before and has not been released, and what has been created. -/
theorem Reach.live_after (hg : Good g ar) {e : Ev} (r : Reach g ro ar calm D (e :: h) s) :
    (∀ p, (live (e :: h) p).isSome ↔ ((live h p).isSome ∧ e.released ≠ some p) ∨ e.created = some p) ∧
    (∀ p, e.created = some p → live h p = none) ∧ (∀ p, e.released = some p → (live h p).isSome) ∧
    ∀ a c p q, e.released = some p → e.created = some q → a < g.nArena → c < nClasses g → ro.area a c p → ¬ ro.area a c q := by
  obtain ⟨hro, rfl⟩ := r.roOk hg
  have hrel : ∀ p, e.released = some p → (live h p).isSome := fun p he => by
    obtain ⟨_, _, _, _, _, _, k, _⟩ := r.released hg he
    exact k
  suffices hh : (∀ p, (live (e :: h) p).isSome ↔ ((live h p).isSome ∧ e.released ≠ some p) ∨ e.created = some p) ∧
      (∀ p, e.created = some p → live h p = none) ∧
      ∀ a c p q, e.released = some p → e.created = some q → a < ro.g.nArena → c < nClasses ro.g → ro.area a c p → ¬ ro.area a c q from
    ⟨hh.1, hh.2.1, hrel, hh.2.2⟩
  cases e with
  | store => simp [live, liveStep, Ev.released, Ev.created]
  | errno => simp [live, liveStep, Ev.released, Ev.created]
  | foreign => simp [live, liveStep, Ev.released, Ev.created]
  | call t c x =>
    obtain ⟨s0, chs, r0, hok, henv, _, hc⟩ := r.lastCall
    obtain ⟨w, w', C, _⟩ := r0.called hg hok henv hc
    have key : ∀ q, (w.lend t).G.blk q ≠ .thr t → live h q = none := fun q h2 => by
      cases e : live h q with
      | none => rfl
      | some i => exact absurd (C.pre.linked.mine (t := t) (p := q) (by rw [e]; rfl)).blk h2
    have zero : live h 0 = none := by
      cases e : live h 0 with
      | none => rfl
      | some i => exact absurd rfl (C.pre.live_ne_zero hro (p := 0) (by rw [e]; rfl))
    -- a call that allocates and is not `realloc`
    have alloc : ∀ i, c.request = some i → (Ev.call t c x).released = none → (Ev.call t c x).created = x.block →
        (x.block = none → ∀ L, liveStep L (.call t c x) = L) → _ := fun i hr h1 h2 h3 => by
      have : (∀ p, (live (.call t c x :: h) p).isSome ↔ ((live h p).isSome ∧ (Ev.call t c x).released ≠ some p) ∨ (Ev.call t c x).created = some p) ∧
        (∀ p, (Ev.call t c x).created = some p → live h p = none) ∧
        ∀ a k p q, (Ev.call t c x).released = some p → (Ev.call t c x).created = some q → a < ro.g.nArena → k < nClasses ro.g → ro.area a k p → ¬ ro.area a k q := by
        refine ⟨fun p => ?_, fun p e => ?_, fun a k p q e => ?_⟩
        · show (liveStep (live h) _ p).isSome = true ↔ _
          rw [h1, h2]
          cases e : x.block with
          | none => rw [h3 e]; simp
          | some q =>
            rw [liveStep_request hr e]
            by_cases k : p = q
            · simp [k]
            · simp [k, Ne.symm k]
        · rw [h2] at e
          exact key p (C.res.fresh hro hr e).old
        · rw [h1] at e; cases e
      exact this
    have freed : ∀ q, (Ev.call t c x).released = (if q = 0 then none else some q) → (Ev.call t c x).created = none →
        (∀ L, liveStep L (.call t c x) = fun y => if y = q then none else L y) → _ := fun q h1 h2 h3 => by
      have : (∀ p, (live (.call t c x :: h) p).isSome ↔ ((live h p).isSome ∧ (Ev.call t c x).released ≠ some p) ∨ (Ev.call t c x).created = some p) ∧
        (∀ p, (Ev.call t c x).created = some p → live h p = none) ∧
        ∀ a k p q, (Ev.call t c x).released = some p → (Ev.call t c x).created = some q → a < ro.g.nArena → k < nClasses ro.g → ro.area a k p → ¬ ro.area a k q := by
        refine ⟨fun p => ?_, fun p e => ?_, fun a k p q _ e => ?_⟩
        · show (liveStep (live h) _ p).isSome = true ↔ _
          rw [h1, h2, h3]
          by_cases k : p = q
          · subst k
            by_cases k0 : p = 0
            · subst k0; simp [zero]
            · simp [k0]
          · by_cases k0 : q = 0
            · simp only [if_neg k, if_pos k0]; simp
            · simp [k, k0, Ne.symm k]
        · rw [h2] at e; cases e
        · rw [h2] at e; cases e
      exact this
    cases c with
    | malloc n => exact alloc _ rfl rfl rfl fun e L => by simp only [liveStep, e]; rfl
    | calloc n k => exact alloc _ rfl rfl rfl fun e L => by simp only [liveStep, e]; rfl
    | posixMemalign al n => exact alloc _ rfl rfl rfl fun e L => by simp only [liveStep, e]; rfl
    | alignedAlloc al n => exact alloc _ rfl rfl rfl fun e L => by simp only [liveStep, e]; rfl
    | valloc n => exact alloc _ rfl rfl rfl fun e L => by simp only [liveStep, e]; rfl
    | pvalloc n => exact alloc _ rfl rfl rfl fun e L => by simp only [liveStep, e]; rfl
    | free q => exact freed q rfl rfl fun _ => rfl
    | freeSized q n => exact freed q rfl rfl fun _ => rfl
    | realloc q n =>
      obtain ⟨o, rfl, h1⟩ := C.res
      cases e0 : (retPtr o).block with
      | none => simp [live, liveStep, Ev.released, Ev.created, e0]
      | some y =>
        obtain rfl := block_retPtr e0
        have hy : y ≠ 0 := by
          rintro rfl
          cases e0
        rcases h1 with ⟨rfl, h1⟩ | ⟨h0, size, hsz, _, R | ⟨h1, _, rfl, _⟩⟩
        · have e1 : (Ev.call t (.realloc 0 n) (retPtr (some y))).released = none := by simp [Ev.released, e0]
          have e2 : (Ev.call t (.realloc 0 n) (retPtr (some y))).created = some y := by simp [Ev.created, e0, hy]
          refine ⟨fun p => ?_, fun p e => ?_, fun a k p q e => ?_⟩
          · rw [e1, e2]
            simp only [live, liveStep, e0, if_true]
            by_cases k : p = y
            · simp [k]
            · simp [k, Ne.symm k]
          · rw [e2] at e; cases e
            exact key _ (h1.fresh hro).old
          · rw [e1] at e; cases e
        · have hq := C.pre.live_of_mine R.arg
          obtain ⟨i, hi⟩ := Option.isSome_iff_exists.mp hq
          by_cases hyq : y = q
          · subst hyq
            have e1 : (Ev.call t (.realloc y n) (retPtr (some y))).released = none := by simp [Ev.released, e0]
            have e2 : (Ev.call t (.realloc y n) (retPtr (some y))).created = none := by simp [Ev.created, e0]
            refine ⟨fun p => ?_, fun p e => ?_, fun a k p q e => ?_⟩
            · rw [e1, e2]
              simp only [live, liveStep, e0, if_neg h0, hi]
              by_cases k : p = y
              · simp [k, hi]
              · simp [k]
            · rw [e2] at e; cases e
            · rw [e1] at e; cases e
          · have e1 : (Ev.call t (.realloc q n) (retPtr (some y))).released = some q := by simp [Ev.released, e0, h0, hyq]
            have e2 : (Ev.call t (.realloc q n) (retPtr (some y))).created = some y := by simp [Ev.created, e0, hyq]
            refine ⟨fun p => ?_, fun p e => ?_, fun a k p q' e e' ha hk hp hp' => ?_⟩
            · rw [e1, e2]
              simp only [live, liveStep, e0, if_neg h0, hi]
              by_cases k : p = y
              · simp [k]
              · by_cases k' : p = q
                · simp [k', Ne.symm hyq, hyq]
                · simp [k, k', Ne.symm k, Ne.symm k']
            · rw [e2] at e; cases e
              exact key _ (R.moved hyq).1
            · rw [e1] at e; cases e
              rw [e2] at e'; cases e'
              obtain ⟨i1, k1, hs⟩ := C.pre.small hro ha hk hp hq
              obtain ⟨i2, k2, hs'⟩ := C.post.small hro ha hk hp' ((C.post.linked.blk y).mp (by rw [R.mine.blk]; simp))
              rcases R.kind with (⟨hsz, a3, i3, k3, h3⟩ | ⟨_, gd, h3⟩) | ⟨h3, _⟩
              · obtain ⟨_, h4, _⟩ := hs'.uniq hro C.post.linked.inv h3
                refine R.class_ hyq hsz a k i1 k1 hs ?_
                rw [← classSize_clsOf hsz, h4]
              · exact not_small_has hro C.post.linked.inv hs' h3
              · exact hyq h3
        · have e1 : (Ev.call t (.realloc y n) (retPtr (some y))).released = none := by simp [Ev.released, e0]
          have e2 : (Ev.call t (.realloc y n) (retPtr (some y))).created = none := by simp [Ev.created, e0]
          have hn : live h y = none := key y (by rw [h1]; simp)
          refine ⟨fun p => ?_, fun p e => ?_, fun a k p q e => ?_⟩
          · rw [e1, e2]
            simp only [live, liveStep, e0, if_neg h0, hn]
            simp
          · rw [e2] at e; cases e
          · rw [e1] at e; cases e
    | usableSize q => simp [live, liveStep, Ev.released, Ev.created, Call.request]
    | objectSize q => simp [live, liveStep, Ev.released, Ev.created, Call.request]
    | objectSizeFast q => simp [live, liveStep, Ev.released, Ev.created, Call.request]
    | trim => simp [live, liveStep, Ev.released, Ev.created, Call.request]
    | mallinfo => simp [live, liveStep, Ev.released, Ev.created, Call.request]

/-- The live blocks of a class. -/
theorem Linked.liveSet (hro : RoOk ro) {L : Nat → Option Info} {w : World} (l : Linked ro L w) {a c : Nat} (ha : a < ro.g.nArena) (hc : c < nClasses ro.g) :
    ∃ S : Finset Nat, (∀ p, p ∈ S ↔ (L p).isSome ∧ ro.area a c p) ∧ S.card = liveCount ro.g c (w.σ.sc a c) := by
  refine ⟨((Finset.range (ro.g.metaMax c) ×ˢ Finset.range (ro.g.slots c)).filter fun ik => (w.σ.sc a c).live ik.1 ik.2 = true).image
    fun ik => slotAddr ro.g (ro.regionStart a c) c ik.1 ik.2, fun p => ?_, ?_⟩
  · simp only [Finset.mem_image, Finset.mem_filter, Finset.mem_product, Finset.mem_range]
    constructor
    · rintro ⟨⟨i, k⟩, ⟨_, h2⟩, rfl⟩
      have hs : IsSmall ro w.σ (slotAddr ro.g (ro.regionStart a c) c i k) a c i k := ⟨ha, hc, rfl, h2⟩
      refine ⟨?_, hs.area l.inv⟩
      rw [← l.blk, l.inv.blk]
      exact Or.inl ⟨a, c, i, k, hs⟩
    · rintro ⟨h1, h2⟩
      obtain ⟨i, k, hs⟩ := l.small hro ha hc h2 h1
      have := hs.lt l.inv
      exact ⟨(i, k), ⟨⟨this.1, this.2.1⟩, hs.2.2.2⟩, hs.2.2.1.symm⟩
  · unfold liveCount
    refine Finset.card_image_of_injOn ?_
    rintro ⟨i, k⟩ h1 ⟨i', k'⟩ h2 e
    rw [Finset.mem_coe, Finset.mem_filter, Finset.mem_product, Finset.mem_range, Finset.mem_range] at h1 h2
    obtain ⟨rfl, rfl⟩ := slotAddr_inj hc h1.1.2 h2.1.2 e
    rfl

theorem Fits.liveSet (hro : RoOk ro) {w : World} (f : Fits ro calm h s w) {a c : Nat} (ha : a < ro.g.nArena) (hc : c < nClasses ro.g) :
    ∃ S : Finset Nat, (∀ p, p ∈ S ↔ (live h p).isSome ∧ ro.area a c p) ∧ S.card = liveCount ro.g c (w.σ.sc a c) := f.linked.liveSet hro ha hc

/-- How an event changes the number of live blocks of a class. -/
theorem Reach.count_step (hg : Good g ar) {e : Ev} (r : Reach g ro ar calm D (e :: h) s) {a c : Nat} (ha : a < g.nArena) (hc : c < nClasses g)
    {S S' : Finset Nat} (hS : ∀ p, p ∈ S ↔ (live h p).isSome ∧ ro.area a c p) (hS' : ∀ p, p ∈ S' ↔ (live (e :: h) p).isSome ∧ ro.area a c p) :
    S'.card + (if e.frees ro a c = true then 1 else 0) = S.card + (if e.creates ro a c = true then 1 else 0) ∧
      ¬ (e.frees ro a c = true ∧ e.creates ro a c = true) := by
  obtain ⟨h1, h2, h3, h4⟩ := r.live_after hg
  have hn : ¬ (e.frees ro a c = true ∧ e.creates ro a c = true) := by
    rw [Ev.frees_iff, Ev.creates_iff]
    rintro ⟨⟨p, e1, p1⟩, q, e2, q1⟩
    exact h4 a c p q e1 e2 ha hc p1 q1
  refine ⟨?_, hn⟩
  by_cases hf : e.frees ro a c = true
  · have hcr : ¬ e.creates ro a c = true := fun k => hn ⟨hf, k⟩
    rw [if_pos hf, if_neg hcr]
    obtain ⟨p, e1, p1⟩ := Ev.frees_iff.mp hf
    have : S = insert p S' := by
      ext q
      rw [Finset.mem_insert, hS, hS', h1]
      constructor
      · rintro ⟨k1, k2⟩
        by_cases e : q = p
        · exact Or.inl e
        · exact Or.inr ⟨Or.inl ⟨k1, fun k => e (by rw [e1] at k; cases k; rfl)⟩, k2⟩
      · rintro (rfl | ⟨⟨k1, _⟩ | k1, k2⟩)
        · exact ⟨h3 q e1, p1⟩
        · exact ⟨k1, k2⟩
        · exact absurd (Ev.creates_iff.mpr ⟨q, k1, k2⟩) hcr
    rw [this, Finset.card_insert_of_notMem]
    rw [hS', h1]
    rintro ⟨⟨_, k⟩ | k, k2⟩
    · exact k e1
    · exact hcr (Ev.creates_iff.mpr ⟨p, k, k2⟩)
  · rw [if_neg hf]
    by_cases hcr : e.creates ro a c = true
    · rw [if_pos hcr]
      obtain ⟨p, e1, p1⟩ := Ev.creates_iff.mp hcr
      have : S' = insert p S := by
        ext q
        rw [Finset.mem_insert, hS, hS', h1]
        constructor
        · rintro ⟨⟨k1, _⟩ | k1, k2⟩
          · exact Or.inr ⟨k1, k2⟩
          · rw [e1] at k1; cases k1; exact Or.inl rfl
        · rintro (rfl | ⟨k1, k2⟩)
          · exact ⟨Or.inr e1, p1⟩
          · exact ⟨Or.inl ⟨k1, fun k => hf (Ev.frees_iff.mpr ⟨q, k, k2⟩)⟩, k2⟩
      rw [this, Finset.card_insert_of_notMem]
      rw [hS]
      rintro ⟨k, _⟩
      rw [h2 p e1] at k; cases k
    · rw [if_neg hcr]
      congr 2
      ext q
      rw [hS, hS', h1]
      constructor
      · rintro ⟨⟨k1, _⟩ | k1, k2⟩
        · exact ⟨k1, k2⟩
        · exact absurd (Ev.creates_iff.mpr ⟨q, k1, k2⟩) hcr
      · rintro ⟨k1, k2⟩
        exact ⟨Or.inl ⟨k1, fun k => hf (Ev.frees_iff.mpr ⟨q, k, k2⟩)⟩, k2⟩

/-- The counters of a class are the numbers of events. -/
theorem Reach.counts (hg : Good g ar) (r : Reach g ro ar calm D h s) : ∃ w, Fits ro calm h s w ∧ ∀ a c, a < g.nArena → c < nClasses g →
    w.G.frees a c = h.countP (Ev.frees ro a c) ∧ w.G.frees a c + liveCount ro.g c (w.σ.sc a c) = h.countP (Ev.creates ro a c) := by
  have hro' := r.roOk hg
  obtain ⟨hro, rfl⟩ := hro'
  -- from one state to the next
  have next : ∀ {e : Ev} {h : List Ev} {s s' : Sys} {w w' : World}, Reach ro.g ro ar calm D (e :: h) s' → Fits ro calm h s w → Fits ro calm (e :: h) s' w' → Next ro e w w' →
      (∀ a c, a < ro.g.nArena → c < nClasses ro.g → w.G.frees a c = h.countP (Ev.frees ro a c) ∧ w.G.frees a c + liveCount ro.g c (w.σ.sc a c) = h.countP (Ev.creates ro a c)) →
      ∀ a c, a < ro.g.nArena → c < nClasses ro.g → w'.G.frees a c = (e :: h).countP (Ev.frees ro a c) ∧
        w'.G.frees a c + liveCount ro.g c (w'.σ.sc a c) = (e :: h).countP (Ev.creates ro a c) := by
    intro e h s s' w w' r f f' n ih a c ha hc
    obtain ⟨S, k1, k2⟩ := f.liveSet hro ha hc
    obtain ⟨S', k1', k2'⟩ := f'.liveSet hro ha hc
    obtain ⟨q1, q2⟩ := r.count_step hg ha hc k1 k1'
    obtain ⟨i1, i2⟩ := ih a c ha hc
    have n1 := n.frees a c
    have n2 := Reach.evFrees_le hg r ha hc
    have n3 := n.delay.frees a c
    have n4 := n.delay.made a c ha hc
    rw [List.countP_cons, List.countP_cons]
    by_cases b1 : e.frees ro a c = true
    · have b2 : ¬ e.creates ro a c = true := fun k => q2 ⟨b1, k⟩
      rw [if_pos b1] at q1 n2 ⊢
      rw [if_neg b2] at q1 ⊢
      omega
    · rw [if_neg b1] at q1 n2 ⊢
      omega
  induction r with
  | init hi htl =>
    obtain ⟨f0, _⟩ := fits_init hg hi htl calm
    refine ⟨_, f0, fun a c ha hc => ⟨rfl, ?_⟩⟩
    obtain ⟨S, k1, k2⟩ := f0.liveSet hro ha hc
    rw [← k2]
    have : S = ∅ := by
      ext p; rw [k1]; simp [live]
    rw [this]; rfl
  | step hr ha hd hs ih =>
    obtain ⟨w, f, ih⟩ := ih
    obtain ⟨w', f', n, _⟩ := Sys.step_linked hro hg.arena f ha hs
    exact ⟨w', f', next (.step hr ha hd hs) f f' n ih⟩
  | other hr pg pr data hp ih =>
    obtain ⟨w, f, ih⟩ := ih
    obtain ⟨f', n, _⟩ := f.other hro hp pr data
    exact ⟨_, f', next (.other hr pg pr data hp) f f' n ih⟩

end HM
