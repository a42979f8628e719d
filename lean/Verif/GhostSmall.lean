import Verif.GhostClass
import Verif.SmallAllocSpec
import Verif.SmallTrim
/-
Allocation, deallocation and trimming in a size class, as changes of the world.
-/
namespace HM

variable {ro : Ro} {g : Cfg} {base cls : Nat}

/-! ### Counting -/

theorem liveCount_add {c c' : SC} {i k : Nat} (hi : i < g.metaMax cls) (hk : k < g.slots cls) (h : c.live i k = false)
    (h' : ∀ a b, c'.live a b = (c.live a b || (decide (a = i) && decide (b = k)))) :
    liveCount g cls c' = liveCount g cls c + 1 := by
  unfold liveCount
  rw [← Finset.card_insert_of_notMem (a := (i, k)) (by simp [h])]
  congr 1
  ext ⟨a, b⟩
  simp only [Finset.mem_filter, Finset.mem_product, Finset.mem_range, Finset.mem_insert, h', Bool.or_eq_true, Bool.and_eq_true,
    decide_eq_true_eq, Prod.mk.injEq]
  constructor
  · rintro ⟨h1, h2 | h2⟩
    · exact Or.inr ⟨h1, h2⟩
    · exact Or.inl h2
  · rintro (h2 | ⟨h1, h2⟩)
    · exact ⟨by rw [h2.1, h2.2]; exact ⟨hi, hk⟩, Or.inr h2⟩
    · exact ⟨h1, Or.inl h2⟩

theorem liveCount_sub {c c' : SC} {i k : Nat} (hi : i < g.metaMax cls) (hk : k < g.slots cls) (h : c.live i k = true)
    (h' : ∀ a b, c'.live a b = (c.live a b && !(decide (a = i) && decide (b = k)))) :
    liveCount g cls c = liveCount g cls c' + 1 := by
  refine liveCount_add hi hk (by rw [h']; simp) fun a b => ?_
  rw [h']
  by_cases e : a = i ∧ b = k
  · rw [e.1, e.2, h]; simp
  · rcases not_and_or.mp e with e | e <;> simp [e]

theorem liveCount_congr {c c' : SC} (h : ∀ a b, c'.live a b = c.live a b) : liveCount g cls c' = liveCount g cls c := by
  unfold liveCount; simp only [h]

theorem rwCount_congr {loc loc' : Nat → Loc} (h : ∀ i, (loc' i).isRw = (loc i).isRw) : rwCount g cls loc' = rwCount g cls loc := by
  unfold rwCount; simp only [h]

theorem rwCount_sub {loc loc' : Nat → Loc} {T : List Nat} (hn : T.Nodup) (hT : ∀ i, i ∈ T ↔ (loc i).isRw = true ∧ (loc' i).isRw = false)
    (hlt : ∀ i, i ∈ T → i < g.metaMax cls) (h : ∀ i, (loc' i).isRw = true → (loc i).isRw = true) :
    rwCount g cls loc = rwCount g cls loc' + T.length := by
  unfold rwCount
  rw [← List.toFinset_card_of_nodup hn, ← Finset.card_union_of_disjoint]
  · congr 1
    ext i
    simp only [Finset.mem_filter, Finset.mem_range, Finset.mem_union, List.mem_toFinset]
    constructor
    · rintro ⟨h1, h2⟩
      by_cases h3 : (loc' i).isRw = true
      · exact Or.inl ⟨h1, h3⟩
      · exact Or.inr ((hT i).mpr ⟨h2, by simpa using h3⟩)
    · rintro (⟨h1, h2⟩ | h2)
      · exact ⟨h1, h i h2⟩
      · exact ⟨hlt i h2, ((hT i).mp h2).1⟩
  · rw [Finset.disjoint_left]
    intro i hi hi'
    simp only [Finset.mem_filter, List.mem_toFinset] at hi hi'
    have := ((hT i).mp hi').2
    rw [hi.2] at this
    exact absurd this (by simp)

theorem add64_mul (s n : Nat) : add64 (s * n % W64) s = s * (n + 1) % W64 := by
  unfold add64; rw [Nat.mul_add, Nat.mul_one]; omega

theorem sub64_mul {s n : Nat} (hs : s < W64) : sub64 (s * (n + 1) % W64) s = s * n % W64 := by
  unfold sub64; rw [Nat.mul_add, Nat.mul_one]; omega

theorem sub64_iter {s : Nat} (hs : s < W64) (n m : Nat) : (fun x => sub64 x s)^[m] (s * (n + m) % W64) = s * n % W64 := by
  induction m with
  | zero => rfl
  | succ m ih =>
    rw [Function.iterate_succ_apply]
    show (fun x => sub64 x s)^[m] (sub64 (s * (n + (m + 1)) % W64) s) = _
    rw [show n + (m + 1) = (n + m) + 1 by omega, sub64_mul hs]
    exact ih

theorem page_in_slab (hb : BaseOk g base) (hc : cls < nClasses g) {i pg : Nat}
    (h : inPages (slabAddr base (g.slabSize cls) i) (g.slabSize cls) pg) :
    ∃ x, inRange (slabAddr base (g.slabSize cls) i) (g.slabSize cls) x ∧ x / PAGE = pg := by
  have h1 := hb.mod
  have h2 := (classGeo g hc).slab_mod
  have h3 : i * g.slabSize cls % PAGE = 0 := by rw [Nat.mul_mod, h2]; simp
  refine ⟨pg * PAGE, ?_, by omega⟩
  unfold inPages slabAddr at *
  unfold inRange
  omega

/-- The empty slab total only grows if some slab becomes empty. -/
theorem emptyTotal_le {c c' : SC} {P E F P' E' F' : List Nat} {loc loc' : Nat → Loc} {ql ql' : Nat → Nat → QLoc}
    (h : SCInv g base cls c P E F loc ql) (h' : SCInv g base cls c' P' E' F' loc' ql') (he : ∀ i, loc' i = .empty → loc i = .empty) :
    c'.emptyTotal ≤ c.emptyTotal := by
  rw [h.etot, h'.etot]
  refine Nat.mul_le_mul_right _ ?_
  rw [← List.toFinset_card_of_nodup h.lists.en, ← List.toFinset_card_of_nodup h'.lists.en]
  refine Finset.card_le_card fun i hi => ?_
  rw [List.mem_toFinset] at hi ⊢
  exact (h.lists.em i).mpr (he i ((h'.lists.em i).mp hi))

theorem live_used {c : SC} {i k : Nat} (h : c.live i k = true) : c.used i k = true := by
  unfold SC.live at h; simp only [Bool.and_eq_true] at h; exact h.1

theorem used_count {c : SC} {P E F : List Nat} {loc : Nat → Loc} {ql : Nat → Nat → QLoc} {i k : Nat}
    (h : SCInv g base cls c P E F loc ql) (hu : c.used i k = true) : 0 < (c.slabs i).count := by
  have hk := h.bits.used_lt hu
  rw [h.bits.cnt i, Nat.pos_iff_ne_zero, Ne, bitCount_zero_iff]
  intro hz
  have := hz k hk
  unfold SC.used at hu
  rw [hu] at this
  exact absurd this (by simp)

/-- A slot address belongs to a holder exactly if the slot is live. -/
theorem GInv.blk_slot {w : World} (hro : RoOk ro) (h : GInv ro w) {a c i k : Nat} (ha : a < ro.g.nArena) (hc : c < nClasses ro.g)
    (hi : i < ro.g.metaMax c) (hk : k < ro.g.slots c) :
    w.G.blk (slotAddr ro.g (ro.regionStart a c) c i k) ≠ .nobody ↔ (w.σ.sc a c).live i k = true := by
  rw [h.blk]
  constructor
  · rintro (⟨a', c', i', k', hs⟩ | ⟨z, g, hr⟩)
    · obtain ⟨hi', hk', _⟩ := hs.lt h
      obtain ⟨ha', hc', hq, hl⟩ := hs
      obtain ⟨e1, e2, e3, e4⟩ := slotAddr_unique hro ha hc ha' hc' hi hk hi' hk' hq
      rw [e1, e2, e3, e4]; exact hl
    · exact absurd (slotAddr_classMem hc hi hk) (h.has_not_slot hro hr ha hc)
  · intro hl
    exact Or.inl ⟨a, c, i, k, ha, hc, rfl, hl⟩

/-- One holder changes. -/
def setBlk (f : Nat → Holder) (p : Nat) (h : Holder) : Nat → Holder := fun q => if q = p then h else f q

theorem setBlk_same (f : Nat → Holder) (p : Nat) (h : Holder) : setBlk f p h p = h := by simp [setBlk]
theorem setBlk_ne (f : Nat → Holder) {p q : Nat} (h : Holder) (hq : q ≠ p) : setBlk f p h q = f q := by simp [setBlk, hq]

/-! ### Allocation -/

/-- `allocate_small` returns a block. -/
theorem classStep_alloc {w : World} (hro : RoOk ro) (h : GInv ro w) {a c : Nat} (ha : a < ro.g.nArena) (hc : c < nClasses ro.g)
    {s' : SC} {vm' : Vm} {i k : Nat} {v : Loc} (hv : v = .part ∨ v = .out) (t : Nat)
    (hinv : ∃ P E F, SCInv ro.g (ro.regionStart a c) c s' P E F (Loc.set (w.G.loc a c) i v) (w.G.ql a c))
    (hvm : SCVm ro.g (ro.regionStart a c) c (Loc.set (w.G.loc a c) i v) vm') (hT : Taken ro.g c (w.σ.sc a c) s' i k)
    {tag : Bool} (hTv : TakenVm ro.g tag (ro.regionStart a c) c (w.G.loc a c) (s'.slabs i).canary w.σ.vm vm' i k)
    (hsa : s'.slabAllocated = if ro.g.stats = true ∧ (w.G.loc a c i).isRw = false
      then add64 (w.σ.sc a c).slabAllocated (ro.g.slabSize c) else (w.σ.sc a c).slabAllocated) :
    ClassStep ro a c w s' vm' (Loc.set (w.G.loc a c) i v) (w.G.ql a c)
      (setBlk w.G.blk (slotAddr ro.g (ro.regionStart a c) c i k) (.thr t)) 0
      (fun q => q = slotAddr ro.g (ro.regionStart a c) c i k) := by
  obtain ⟨P, E, F, hi0⟩ := h.cls a c ha hc
  have G := classGeo ro.g hc
  have hge := G.size_ge
  have hb := hro.base ha hc
  have hquar : (w.σ.sc a c).quar i k = false := by
    cases hq : (w.σ.sc a c).quar i k with
    | false => rfl
    | true =>
      have := hi0.qarr.sub i k ((hi0.qarr.bit i k).mp hq)
      rw [hT.free] at this; exact absurd this (by simp)
  have hlive : ∀ a' b, s'.live a' b = ((w.σ.sc a c).live a' b || (decide (a' = i) && decide (b = k))) := by
    intro a' b
    unfold SC.live
    rw [hT.used, hT.quar]
    by_cases e : a' = i ∧ b = k
    · rw [e.1, e.2, hT.free, hquar]; simp
    · rcases not_and_or.mp e with e | e <;> simp [e]
  have hnl : (w.σ.sc a c).live i k = false := by unfold SC.live; rw [hT.free]; rfl
  have hvrw : v.isRw = true := by rcases hv with rfl | rfl <;> rfl
  have hmem : ∀ x, ¬ inRange (slotAddr ro.g (ro.regionStart a c) c i k) (ro.g.slotSize c) x → vm'.mem x = w.σ.vm.mem x := by
    intro x hx
    refine hTv.mem x fun hcx => hx ?_
    rcases hcx.2 with ⟨_, hr⟩ | ⟨_, hr⟩
    · unfold inRange at *; omega
    · exact hr
  have hother : ∀ i' k', i' < ro.g.metaMax c → k' < ro.g.slots c → ¬ (i' = i ∧ k' = k) → ∀ x,
      inRange (slotAddr ro.g (ro.regionStart a c) c i' k') (ro.g.slotSize c) x → vm'.mem x = w.σ.vm.mem x := by
    intro i' k' _ hk' hne x hx
    exact hmem x fun hx' => hne (slot_disjoint hc hk' hT.lt hx hx')
  have hcan : ∀ i' k', (w.σ.sc a c).live i' k' = true → (s'.slabs i').canary = ((w.σ.sc a c).slabs i').canary :=
    fun i' k' hl => hT.canary i' (used_count hi0 (live_used hl))
  refine ⟨ha, hc, hinv, hvm, fun pg hpg => ?_, fun x hx => ?_, fun hcalm => ?_, fun q hq => ⟨i, k, hT.imax, hT.lt, hq⟩, fun q hq => ?_,
    fun i' k' hi' hk' hq => ?_, fun i' k' hi' hk' hne => ?_, fun hcont i' k' hi' hk' hz => ?_, fun hst hs => ?_, ?_, fun i' k' => ?_⟩
  · rw [hTv.prot, if_neg]
    rintro ⟨_, _, hpg'⟩
    obtain ⟨x, hx, e⟩ := page_in_slab hb hc hpg'
    exact hpg x (slab_of_slab hc hT.imax hx) e
  · exact hmem x fun hx' => hx (slot_classMem hc hT.imax hT.lt hx')
  · refine Nat.le_trans ?_ (h.cache hcalm a c ha hc)
    obtain ⟨P', E', F', hi'⟩ := hinv
    refine emptyTotal_le hi0 hi' fun j hj => ?_
    by_cases e : j = i
    · rw [e, Loc.set_same] at hj
      rcases hv with rfl | rfl <;> exact absurd hj (by simp)
    · rw [Loc.set_ne e] at hj; exact hj
  · exact setBlk_ne _ _ hq
  · obtain ⟨rfl, rfl⟩ := slotAddr_inj hc hk' hT.lt hq
    rw [setBlk_same, hlive]; simp
  · have hne' : ¬ (i' = i ∧ k' = k) := fun e => hne (by rw [e.1, e.2])
    refine ⟨?_, fun hl => ⟨hcan i' k' hl, hother i' k' hi' hk' hne'⟩⟩
    rw [hlive]
    rcases not_and_or.mp hne' with e | e <;> simp [e]
  · obtain ⟨h1, h2⟩ := hcont i' k' hi' hk' hz
    by_cases e : i' = i ∧ k' = k
    · obtain ⟨rfl, rfl⟩ := e
      rw [hlive]
      refine ⟨fun hl => by simp at hl, fun _ hcn => hTv.can hz hcn⟩
    · have hl' : s'.live i' k' = (w.σ.sc a c).live i' k' := by
        rw [hlive]; rcases not_and_or.mp e with e | e <;> simp [e]
      rw [hl']
      refine ⟨fun hl hf x hx => ?_, fun hl hcn => ?_⟩
      · rw [hother i' k' hi' hk' e x (by unfold inRange at *; omega)]; exact h1 hl hf x hx
      · rw [hcan i' k' hl]; exact (h2 hl hcn).congr fun j hj => hother i' k' hi' hk' e _ (by unfold inRange; omega)
  · obtain ⟨⟨h1, h2⟩, h3, h4⟩ := hs
    refine ⟨⟨?_, ?_⟩, by rw [hT.nmalloc, if_pos hst, liveCount_add hT.imax hT.lt hnl hlive, h3]; unfold add64; omega, by rw [hT.ndalloc, h4]; rfl⟩
    · rw [hT.allocated, if_pos hst, liveCount_add hT.imax hT.lt hnl hlive, h1, add64_mul]
    · rw [hsa]
      by_cases hrw : (w.G.loc a c i).isRw = false
      · rw [if_pos ⟨hst, hrw⟩, h2, add64_mul]
        congr 2
        refine (rwCount_sub (T := [i]) (by simp) (fun j => ?_) (fun j hj => ?_) fun j hj => ?_).symm
        · simp only [List.mem_singleton]
          constructor
          · rintro rfl; rw [Loc.set_same]; exact ⟨hvrw, hrw⟩
          · rintro ⟨e1, e2⟩
            by_contra e
            rw [Loc.set_ne e, e2] at e1; exact absurd e1 (by simp)
        · rw [List.mem_singleton] at hj; rw [hj]; exact hT.imax
        · by_cases e : j = i
          · rw [e, hrw] at hj; exact absurd hj (by simp)
          · rw [Loc.set_ne e]; exact hj
      · rw [if_neg fun e => hrw e.2, h2]
        congr 2
        refine (rwCount_congr fun j => ?_).symm
        by_cases e : j = i
        · rw [e, Loc.set_same, hvrw]; simpa using hrw
        · rw [Loc.set_ne e]
  · rw [liveCount_add hT.imax hT.lt hnl hlive]; omega
  · unfold slotDelay; rw [hT.qidx]; omega

/-- `allocate_small` returns NULL. -/
theorem classStep_none {w : World} (h : GInv ro w) {a c : Nat} (ha : a < ro.g.nArena) (hc : c < nClasses ro.g)
    {s' : SC} (hinv : ∃ P E F, SCInv ro.g (ro.regionStart a c) c s' P E F (w.G.loc a c) (w.G.ql a c))
    (hT : SameSlots (w.σ.sc a c) s') :
    ClassStep ro a c w s' w.σ.vm (w.G.loc a c) (w.G.ql a c) w.G.blk 0 (fun _ => False) := by
  obtain ⟨P, E, F, hi0⟩ := h.cls a c ha hc
  have hlive : ∀ a' b, s'.live a' b = (w.σ.sc a c).live a' b := fun a' b => by unfold SC.live; rw [hT.used, hT.quar]
  have hcan : ∀ i' k', (w.σ.sc a c).live i' k' = true → (s'.slabs i').canary = ((w.σ.sc a c).slabs i').canary :=
    fun i' k' hl => hT.canary i' (used_count hi0 (live_used hl))
  refine ⟨ha, hc, hinv, h.clsVm a c ha hc, fun pg hpg => rfl, fun x hx => rfl, fun hcalm => ?_, fun q hq => hq.elim, fun q hq => rfl,
    fun i' k' hi' hk' hq => hq.elim, fun i' k' hi' hk' hne => ⟨hlive _ _, fun hl => ⟨hcan i' k' hl, fun _ _ => rfl⟩⟩,
    fun hcont i' k' hi' hk' hz => ?_, fun hst hs => ?_, ?_, fun i' k' => ?_⟩
  · refine Nat.le_trans ?_ (h.cache hcalm a c ha hc)
    obtain ⟨P', E', F', hi'⟩ := hinv
    exact emptyTotal_le hi0 hi' fun j hj => hj
  · obtain ⟨h1, h2⟩ := hcont i' k' hi' hk' hz
    rw [hlive]
    exact ⟨h1, fun hl hcn => by rw [hcan i' k' hl]; exact h2 hl hcn⟩
  · unfold ClassStat
    rw [hT.allocated, hT.slabAllocated, hT.nmalloc, hT.ndalloc, liveCount_congr hlive]; exact hs
  · rw [liveCount_congr hlive]; exact Nat.le_add_right _ _
  · unfold slotDelay; rw [hT.qidx]; omega

/-! ### Deallocation -/

theorem delay_queue {L q j : Nat} (hq : q < L) (hj : j < L) (hne : j ≠ q) : (j + L - q) % L + 1 ≤ (j + L - (q + 1) % L) % L + 1 + 1 := by
  by_cases h : q + 1 < L
  · rw [Nat.mod_eq_of_lt h]
    by_cases h2 : q < j
    · have e1 : (j + L - q) % L = j - q := by rw [show j + L - q = (j - q) + L by omega, Nat.add_mod_right, Nat.mod_eq_of_lt (by omega)]
      have e2 : (j + L - (q + 1)) % L = j - (q + 1) := by
        rw [show j + L - (q + 1) = (j - (q + 1)) + L by omega, Nat.add_mod_right, Nat.mod_eq_of_lt (by omega)]
      omega
    · have e1 : (j + L - q) % L = j + L - q := Nat.mod_eq_of_lt (by omega)
      have e2 : (j + L - (q + 1)) % L = j + L - (q + 1) := Nat.mod_eq_of_lt (by omega)
      omega
  · have e : q + 1 = L := by omega
    rw [e, Nat.mod_self, Nat.sub_zero, Nat.add_mod_right, Nat.mod_eq_of_lt hj]
    have e1 : (j + L - q) % L = j + L - q := Nat.mod_eq_of_lt (by omega)
    omega

theorem delay_self {L q : Nat} (hq : q < L) : (q + L - (q + 1) % L) % L + 1 = L := by
  by_cases h : q + 1 < L
  · rw [Nat.mod_eq_of_lt h, Nat.mod_eq_of_lt (by omega)]; omega
  · have e : q + 1 = L := by omega
    rw [e, Nat.mod_self, Nat.sub_zero, Nat.add_mod_right, Nat.mod_eq_of_lt hq]; omega

theorem delay_bound {L q j : Nat} (hq : q < L) : (j + L - q) % L + 1 ≤ L := by
  have := Nat.mod_lt (j + L - q) (show 0 < L by omega); omega

/-- A deallocation brings the other quarantined slots at most one step closer to reuse. -/
theorem QStep.delay {c c' : SC} {ql ql' : Nat → Nat → QLoc} {i k : Nat} {pushed : Bool} (h : QArr g base cls c ql)
    (hlen : lenQ g cls ≠ 0 → g.slabQQueue ≠ 0) (hlen' : g.slabQQueue ≠ 0 → 0 < lenQ g cls)
    (hs : QStep g cls c c' ql ql' i k pushed) (h0 : ql i k = .none) (a b : Nat) :
    slotDelay g cls c ql a b ≤ slotDelay g cls c' ql' a b + 1 := by
  by_cases hab : a = i ∧ b = k
  · unfold slotDelay; rw [hab.1, hab.2, h0]; simp
  · have hq : lenQ g cls ≠ 0 → c.qidx < lenQ g cls := fun e => h.idx (hlen e)
    rcases hs.other a b hab with ⟨e1, e2⟩ | ⟨⟨j, e1⟩, e2⟩ | ⟨e1, e2, e3⟩
    · unfold slotDelay
      rw [e1]
      cases e : ql a b with
      | queue j =>
        simp only
        have hj : j < lenQ g cls := (h.q1 a b j e).2
        have hq := hq (by omega)
        cases hp : pushed with
        | false => rw [hs.idx, hp]; simp
        | true =>
          rw [hs.idx, hp, if_pos rfl]
          refine delay_queue hq hj fun e' => e2 hp ?_
          rw [e, e']
      | _ => simp
    · unfold slotDelay
      rw [e1]
      simp only
      by_cases hQ : g.slabQQueue ≠ 0
      · rw [if_pos hQ] at e2
        rw [e2.2]
        simp only
        rw [hs.idx, e2.1, if_pos rfl, delay_self (L := lenQ g cls) (h.idx hQ)]
      · have : lenQ g cls = 0 := by by_contra e; exact hQ (hlen e)
        rw [this]; omega
    · unfold slotDelay
      rw [e2, e3]
      simp only
      have hj : c.qidx < lenQ g cls := (h.q1 a b _ e2).2
      rw [show c.qidx + lenQ g cls - c.qidx = lenQ g cls by omega, Nat.mod_self]

theorem lenQ_zero (hcls : cls < nClasses g) (hv : g.Valid) : (lenQ g cls ≠ 0 → g.slabQQueue ≠ 0) ∧ (g.slabQQueue ≠ 0 → 0 < lenQ g cls) := by
  refine ⟨fun h e => h ?_, fun h => len_pos hcls hv.slabQQueue h⟩
  unfold lenQ; rw [e]; simp [shl64]

/-- `deallocate_small` succeeds. -/
theorem classStep_free {w : World} (hro : RoOk ro) (h : GInv ro w) {a c : Nat} (ha : a < ro.g.nArena) (hc : c < nClasses ro.g)
    {ch : Choice} (hcalm : w.G.calm = true → ∀ k, ch.sys k ≠ .enomem)
    {s' : SC} {vm' : Vm} {e e' : Errno} {i k : Nat} {loc' : Nat → Loc} {ql' : Nat → Nat → QLoc} {out : Option (Nat × Nat)} {r : Bool}
    (D : DeallocOk ro.g (ro.regionStart a c) c ch (w.σ.sc a c) s' w.σ.vm vm' e e' (w.G.loc a c) loc' (w.G.ql a c) ql' i k out r) :
    ClassStep ro a c w s' vm' loc' ql' (setBlk w.G.blk (slotAddr ro.g (ro.regionStart a c) c i k) .nobody) 1
      (fun q => q = slotAddr ro.g (ro.regionStart a c) c i k) := by
  obtain ⟨P, E, F, hi0⟩ := h.cls a c ha hc
  have G := classGeo ro.g hc
  have hge := G.size_ge
  have hb := hro.base ha hc
  have hk := hi0.bits.used_lt D.wasUsed
  have hi := hi0.rw_lt (isRw_not_fresh (used_isRw hi0 D.wasUsed))
  have hl0 : (w.σ.sc a c).live i k = true := by unfold SC.live; rw [D.wasUsed, D.notQuar]; rfl
  have hout : ∀ a' b', out = some (a', b') → a' < ro.g.metaMax c := fun a' b' e =>
    hi0.rw_lt (isRw_not_fresh (used_isRw hi0 (D.was a' b' e).1))
  have hmem : ∀ x, vm'.mem x ≠ w.σ.vm.mem x → ClassMem ro a c x := by
    intro x hx
    rcases D.mem x with e | ⟨_, ⟨_, ⟨_, hr⟩ | ⟨_, hr⟩⟩ | ⟨a', b', eo, _, hr⟩⟩
    · exact absurd e hx
    · exact slot_classMem hc hi hk (by unfold inRange at *; omega)
    · exact slot_classMem hc hi hk (by unfold inRange at *; omega)
    · exact slab_of_slab hc (hout a' b' eo) hr
  -- memory of slots that stay live does not change
  have hkeep : ∀ i' k', k' < ro.g.slots c → s'.live i' k' = true → ∀ x,
      inRange (slotAddr ro.g (ro.regionStart a c) c i' k') (ro.g.slotSize c) x → vm'.mem x = w.σ.vm.mem x := by
    intro i' k' hk' hl x hx
    rcases D.mem x with e | ⟨_, ⟨_, hr⟩ | ⟨a', b', eo, hu, hr⟩⟩
    · exact e
    · have hr' : inRange (slotAddr ro.g (ro.regionStart a c) c i k) (ro.g.slotSize c) x := by
        clear hx
        rcases hr with ⟨_, hr⟩ | ⟨_, hr⟩
        · unfold inRange at *; omega
        · exact hr
      obtain ⟨rfl, rfl⟩ := slot_disjoint hc hk' hk hx hr'
      rw [D.live] at hl; simp at hl
    · have := slab_disjoint hc (slot_range_slab hc hk' hx) hr
      rw [this] at hl
      have hu' := live_used hl
      rw [hu] at hu'; exact absurd hu' (by simp)
  refine ⟨ha, hc, D.inv, D.scvm, fun pg hpg => ?_, fun x hx => ?_, fun hcalm' => ?_, fun q hq => ⟨i, k, hi, hk, hq⟩, fun q hq => ?_,
    fun i' k' hi' hk' hq => ?_, fun i' k' hi' hk' hne => ?_, fun hcont i' k' hi' hk' hz => ?_, fun hst hs => ?_, ?_, fun i' k' => ?_⟩
  · rw [D.prot, if_neg]
    rintro ⟨_, a', eo, hpg'⟩
    obtain ⟨x, hx, e⟩ := page_in_slab hb hc hpg'
    rw [Option.map_eq_some_iff] at eo
    obtain ⟨⟨a'', b'⟩, eo, rfl⟩ := eo
    exact hpg x (slab_of_slab hc (hout _ _ eo) hx) e
  · by_contra hne
    exact hx (hmem x hne)
  · have := h.cache hcalm' a c ha hc
    rcases D.emptyTotal with h1 | h1 | h1
    · exact Nat.le_trans h1 this
    · exact h1
    · exact absurd h1 (hcalm hcalm' 0)
  · exact setBlk_ne _ _ hq
  · obtain ⟨rfl, rfl⟩ := slotAddr_inj hc hk' hk hq
    rw [setBlk_same, D.live]; simp
  · have hne' : ¬ (i' = i ∧ k' = k) := fun e => hne (by rw [e.1, e.2])
    have hl' : s'.live i' k' = (w.σ.sc a c).live i' k' := by
      rw [D.live]; rcases not_and_or.mp hne' with e | e <;> simp [e]
    exact ⟨hl', fun hl => ⟨D.canary i', hkeep i' k' hk' (by rw [hl']; exact hl)⟩⟩
  · obtain ⟨h1, h2⟩ := hcont i' k' hi' hk' hz
    refine ⟨fun hl hf x hx => ?_, fun hl hcn => ?_⟩
    · by_cases e : i' = i ∧ k' = k
      · rw [e.1, e.2] at hx; exact D.zeroed hz hf x hx
      · have hl' : (w.σ.sc a c).live i' k' = false := by
          rw [D.live] at hl; rcases not_and_or.mp e with e | e <;> simpa [e] using hl
        rcases D.mem x with e | ⟨e, _⟩
        · rw [e]; exact h1 hl' hf x hx
        · exact e
    · have hl' : (w.σ.sc a c).live i' k' = true := by
        rw [D.live] at hl; simp only [Bool.and_eq_true] at hl; exact hl.1
      rw [D.canary]
      exact (h2 hl' hcn).congr fun j hj => hkeep i' k' hk' hl _ (by unfold inRange; omega)
  · obtain ⟨⟨h1, h2⟩, h3, h4⟩ := hs
    have hs1 : ro.g.slotSize c < W64 := by have := G.size_le; omega
    have hs2 : ro.g.slabSize c < W64 := by have := G.slab_le; omega
    refine ⟨⟨?_, ?_⟩, by rw [D.nmalloc, h3, liveCount_sub hi hk hl0 D.live]; omega, by rw [D.ndalloc, if_pos hst, h4]; unfold add64; omega⟩
    · rw [D.allocated, if_pos hst, h1, liveCount_sub hi hk hl0 D.live, sub64_mul hs1]
    · rw [D.slabAllocated]
      by_cases hr : r = true
      · rw [if_pos ⟨hst, hr⟩, h2]
        obtain ⟨a', b', eo, hrw, _⟩ := D.rout hr
        rw [rwCount_sub (T := [a']) (loc := w.G.loc a c) (loc' := loc') (by simp) (fun j => ?_) (fun j hj => ?_) fun j hj => ?_]
        · exact sub64_mul hs2
        · simp only [List.mem_singleton]
          rw [D.isRw, hr, eo]
          simp only [Option.map_some, Option.some.injEq, Bool.true_and, Bool.and_eq_false_iff, Bool.not_eq_false',
            decide_eq_true_eq]
          constructor
          · rintro rfl; exact ⟨hrw, Or.inr rfl⟩
          · rintro ⟨e1, e2 | e2⟩
            · rw [e1] at e2; exact absurd e2 (by simp)
            · exact e2.symm
        · rw [List.mem_singleton] at hj; rw [hj]; exact hi0.rw_lt (isRw_not_fresh hrw)
        · rw [D.isRw, Bool.and_eq_true] at hj; exact hj.1
      · rw [if_neg fun e => hr e.2, h2]
        congr 2
        refine (rwCount_congr fun j => ?_).symm
        rw [D.isRw]
        have : r = false := by simpa using hr
        rw [this]; simp
  · rw [liveCount_sub hi hk hl0 D.live]
  · obtain ⟨pushed, hst⟩ := D.step
    obtain ⟨l1, l2⟩ := lenQ_zero hc hro.valid
    refine QStep.delay hi0.qarr l1 l2 hst ?_ i' k'
    by_contra hq
    have := D.notQuar
    rw [(hi0.qarr.bit i k).mpr hq] at this
    exact absurd this (by simp)

/-! ### Trimming -/

/-- One step of `malloc_trim`. -/
theorem classStep_trim {w : World} (hro : RoOk ro) (h : GInv ro w) {a c : Nat} (ha : a < ro.g.nArena) (hc : c < nClasses ro.g)
    {s' : SC} {vm' vm1 : Vm} {loc' : Nat → Loc} {T : List Nat}
    (hinv : ∃ P E F, SCInv ro.g (ro.regionStart a c) c s' P E F loc' (w.G.ql a c))
    (hvm : SCVm ro.g (ro.regionStart a c) c loc' vm') (hT : Trimmed ro.g (ro.regionStart a c) c (w.σ.sc a c) s' w.σ.vm vm1 (w.G.loc a c) loc' T)
    (hp : vm'.prot = vm1.prot)
    (hm : ∀ x, vm'.mem x = vm1.mem x ∨ (vm'.mem x = 0#8 ∧ InQuarantine ro.g (ro.regionStart a c) c (w.σ.sc a c) x)) :
    ClassStep ro a c w s' vm' loc' (w.G.ql a c) w.G.blk 0 (fun _ => False) := by
  obtain ⟨P, E, F, hi0⟩ := h.cls a c ha hc
  have G := classGeo ro.g hc
  have hge := G.size_ge
  have hb := hro.base ha hc
  have hbm : ∀ i k, s'.used i k = (w.σ.sc a c).used i k ∧ s'.quar i k = (w.σ.sc a c).quar i k ∧
      (s'.slabs i).canary = ((w.σ.sc a c).slabs i).canary := by
    intro i k
    obtain ⟨n, p, e⟩ := hT.links.slabs i
    unfold SC.used SC.quar
    rw [e]; exact ⟨rfl, rfl, rfl⟩
  have hlive : ∀ i k, s'.live i k = (w.σ.sc a c).live i k := fun i k => by
    unfold SC.live; rw [(hbm i k).1, (hbm i k).2.1]
  have hTlt : ∀ i, i ∈ T → i < ro.g.metaMax c := fun i hi => hi0.rw_lt (by rw [hT.empty i hi]; simp)
  have hmem : ∀ x, vm'.mem x = w.σ.vm.mem x ∨ (vm'.mem x = 0#8 ∧ (InQuarantine ro.g (ro.regionStart a c) c (w.σ.sc a c) x ∨
      ∃ i, i ∈ T ∧ inRange (slabAddr (ro.regionStart a c) (ro.g.slabSize c) i) (ro.g.slabSize c) x)) := by
    intro x
    rcases hm x with e | ⟨e, e2⟩
    · rcases hT.mem x with e1 | ⟨e1, e2⟩
      · left; rw [e, e1]
      · right; rw [e]; exact ⟨e1, Or.inr e2⟩
    · right; exact ⟨e, Or.inl e2⟩
  have hkeep : ∀ i' k', k' < ro.g.slots c → (w.σ.sc a c).live i' k' = true → ∀ x,
      inRange (slotAddr ro.g (ro.regionStart a c) c i' k') (ro.g.slotSize c) x → vm'.mem x = w.σ.vm.mem x := by
    intro i' k' hk' hl x hx
    rcases hmem x with e | ⟨_, ⟨i, k, hu, hq, hr⟩ | ⟨i, hi, hr⟩⟩
    · exact e
    · obtain ⟨rfl, rfl⟩ := slot_disjoint hc hk' (hi0.bits.used_lt hu) hx hr
      unfold SC.live at hl; rw [hq] at hl; simp at hl
    · have := slab_disjoint hc (slot_range_slab hc hk' hx) hr
      subst this
      have h1 := used_count hi0 (live_used hl)
      have h2 := hi0.cntOk i'
      rw [hT.empty i' hi] at h2
      simp only [CountOk] at h2
      omega
  refine ⟨ha, hc, hinv, hvm, fun pg hpg => ?_, fun x hx => ?_, fun hcalm => ?_, fun q hq => hq.elim, fun q hq => rfl,
    fun i' k' hi' hk' hq => hq.elim, fun i' k' hi' hk' _ => ⟨hlive _ _, fun hl => ⟨(hbm i' k').2.2, hkeep i' k' hk' hl⟩⟩,
    fun hcont i' k' hi' hk' hz => ?_, fun hst hs => ?_, ?_, fun i' k' => ?_⟩
  · rw [hp, hT.prot, if_neg]
    rintro ⟨i, hi, hpg'⟩
    obtain ⟨x, hx, e⟩ := page_in_slab hb hc hpg'
    exact hpg x (slab_of_slab hc (hTlt i hi) hx) e
  · rcases hmem x with e | ⟨_, ⟨i, k, hu, hq, hr⟩ | ⟨i, hi, hr⟩⟩
    · exact e
    · exact absurd (slot_classMem hc (hi0.rw_lt (isRw_not_fresh (used_isRw hi0 hu))) (hi0.bits.used_lt hu) hr) hx
    · exact absurd (slab_of_slab hc (hTlt i hi) hr) hx
  · exact Nat.le_trans hT.total (h.cache hcalm a c ha hc)
  · obtain ⟨h1, h2⟩ := hcont i' k' hi' hk' hz
    rw [hlive, (hbm i' k').2.2]
    refine ⟨fun hl hf x hx => ?_, fun hl hcn => ?_⟩
    · rcases hmem x with e | ⟨e, _⟩
      · rw [e]; exact h1 hl hf x hx
      · exact e
    · exact (h2 hl hcn).congr fun j hj => hkeep i' k' hk' hl _ (by unfold inRange; omega)
  · obtain ⟨⟨h1, h2⟩, h3, h4⟩ := hs
    have hs2 : ro.g.slabSize c < W64 := by have := G.slab_le; omega
    refine ⟨⟨?_, ?_⟩, by rw [hT.links.nm, h3, liveCount_congr hlive]; rfl, by rw [hT.links.nd, h4]; rfl⟩
    · rw [hT.links.al, h1, liveCount_congr hlive]
    · rw [hT.slabAllocated, if_pos hst, h2, rwCount_sub hT.nodup hT.mem_T hTlt hT.isRw, sub64_iter hs2]
  · rw [liveCount_congr hlive]; exact Nat.le_add_right _ _
  · unfold slotDelay; rw [hT.links.qi]; omega

end HM
