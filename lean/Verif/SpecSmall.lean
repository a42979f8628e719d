import Verif.SpecFree
/-
Small allocations: the critical sections of `allocate_small`, `deallocate_small`, `memory_corruption_check_small` and
`h_malloc_trim` (h_malloc.c:598-729, 771-911, 1722-1758, 1886-1938).
-/
namespace HM

variable {ro : Ro} {m : Mode} {t : Nat} {F : Bad → Choice → World → Prop}

/-! ### Allocation -/

/-- The usable bytes of slots of class `c`. -/
abbrev Cfg.usable (g : Cfg) (c : Nat) : Nat := g.slotSize c - g.canarySize

/-- The canary of the block `p` in slab `i` of class `c` is intact. -/
def CanaryOk (ro : Ro) (w : World) (p a c i : Nat) : Prop :=
  ro.g.classSize c ≠ 0 → ro.g.slabCanary = true →
    CanaryFine ro.g ((w.σ.sc a c).slabs i).canary (p + ro.g.slotSize c - 8) w.σ.vm

/-- A slot that is not allocated has been overwritten. -/
def Dirty (ro : Ro) (w : World) : Prop :=
  ro.g.writeAfterFreeCheck = true ∧ ∃ a c i k x, a < ro.g.nArena ∧ c < nClasses ro.g ∧ ro.g.classSize c ≠ 0 ∧
    i < ro.g.metaMax c ∧ k < ro.g.slots c ∧ (w.σ.sc a c).live i k = false ∧
    inRange (slotAddr ro.g (ro.regionStart a c) c i k) (ro.g.usable c) x ∧ w.σ.vm.mem x ≠ 0#8

theorem Content.not_dirty {w : World} (hro : RoOk ro) (h : Content ro w) : ¬ Dirty ro w := by
  rintro ⟨h0, a, c, i, k, x, ha, hc, hz, hi, hk, hl, hx, hn⟩
  exact hn ((h a c ha hc i k hi hk hz).1 hl (hro.valid.wafZero h0) x hx)

/-- Class `c` of arena `a` has no room left. -/
def ClassFull (ro : Ro) (w : World) (a c : Nat) : Prop := Exhausted ro.g c (w.σ.sc a c) (w.G.loc a c)

/-- Memory tagging is not enabled during any action. -/
def Untagged (ro : Ro) (w : World) : Prop := ro.g.memtag = false ∨ w.G.tags = some false

/-- Memory tagging is enabled during all actions. -/
def Tagged (ro : Ro) (w : World) : Prop := ro.g.memtag = true ∧ w.G.tags = some true

theorem Fair.untagged {w : World} {ch : Choice} (h : Fair m w.G.env ch) (hu : Untagged ro w) : tagging ro.g ch = false := by
  unfold tagging
  rcases hu with hu | hu
  · rw [hu]; rfl
  · rw [h.2.2.2 _ hu, Bool.and_false]

theorem Fair.tagged {w : World} {ch : Choice} (h : Fair m w.G.env ch) (hu : Tagged ro w) : tagging ro.g ch = true := by
  unfold tagging
  rw [h.2.2.2 _ hu.2, hu.1]; rfl

/-- `p` is a new block of class `c` of arena `a`, held by `t`. -/
structure NewSmall (m : Mode) (ro : Ro) (t a c : Nat) (w0 : World) (p : Nat) (w : World) : Prop where
  at_ : At m ro t (· = p) noFree 0 w0 w
  old : w0.G.blk p ≠ .thr t
  blk : w.G.blk p = .thr t
  small : ∃ i k, IsSmall ro w.σ p a c i k ∧ CanaryOk ro w p a c i
  zero : ro.g.classSize c ≠ 0 → (ro.g.writeAfterFreeCheck = true ∨ Tagged ro w0 ∨ (ro.g.zeroOnFree = true ∧ Content ro w0)) →
    ∀ x, inRange p (ro.g.usable c) x → w.σ.vm.mem x = 0#8
  same : m = .seq → Untagged ro w0 → ∀ x, inRange p (ro.g.usable c) x → w.σ.vm.mem x = w0.σ.vm.mem x
  cleared : m = .seq → ∀ x, inRange p (ro.g.usable c) x → w.σ.vm.mem x = w0.σ.vm.mem x ∨ w.σ.vm.mem x = 0#8

theorem NewSmall.rely {a c p : Nat} {w0 w w' : World} (n : NewSmall m ro t a c w0 p w) (r : Rely m ro t w w') :
    NewSmall m ro t a c w0 p w' := by
  have k := r.keep n.at_.inv n.blk
  have hi := n.at_.inv
  obtain ⟨i, j, hs, hc⟩ := n.small
  obtain ⟨k1, k2, k3⟩ := k.small a c i j hs
  have G := classGeo ro.g hs.2.1
  have h16 := G.size_ge
  refine ⟨n.at_.rely r, n.old, k.blk.trans n.blk, ⟨i, j, k1, fun hz hcn => ?_⟩, fun hz hh x hx => ?_, fun hm hg x hx => ?_, fun hm x hx => ?_⟩
  · rw [k2]; exact (hc hz hcn).congr fun b hb => k3 _ (by unfold inRange; omega)
  · rw [k3 x (by unfold Cfg.usable at hx; unfold inRange at *; omega)]; exact n.zero hz hh x hx
  · rw [k3 x (by unfold Cfg.usable at hx; unfold inRange at *; omega)]; exact n.same hm hg x hx
  · rw [k3 x (by unfold Cfg.usable at hx; unfold inRange at *; omega)]; exact n.cleared hm x hx

/-- The class used for a request. -/
abbrev Cfg.clsOf (_g : Cfg) (n : Nat) : Nat := (getSizeInfo n).cls

theorem clsOf_table {g : Cfg} {c s : Nat} (h : (sizeClasses g)[c]? = some s) : c < nClasses g ∧ g.classSize c = s := by
  constructor
  · have h1 := (List.getElem?_eq_some_iff.mp h).1
    unfold sizeClasses at h1
    unfold nClasses
    cases he : g.extended <;> rw [he] at h1 <;> exact h1
  · unfold Cfg.classSize; rw [List.getD_eq_getElem?_getD, h]; rfl

theorem clsOf_lt {g : Cfg} {n : Nat} (h : n ≤ g.maxSlab) : g.clsOf n < nClasses g := (clsOf_table (getSizeInfo_table g h).1).1

theorem classSize_clsOf {g : Cfg} {n : Nat} (h : n ≤ g.maxSlab) : g.classSize (g.clsOf n) = (getSizeInfo n).size :=
  (clsOf_table (getSizeInfo_table g h).1).2

theorem le_classSize {g : Cfg} {n : Nat} (h : n ≤ g.maxSlab) : n ≤ g.classSize (g.clsOf n) := by
  rw [classSize_clsOf h]; exact (getSizeInfo_table g h).2

theorem clsOf_zero {g : Cfg} {n : Nat} (h : n ≤ g.maxSlab) : n = 0 ↔ g.classSize (g.clsOf n) = 0 := by
  constructor
  · rintro rfl; rw [classSize_clsOf h]; rfl
  · intro e; have := le_classSize h; omega

theorem setLoc_rw {loc : Nat → Nat → Nat → Loc} {l : Nat → Loc} {a c a' c' j : Nat} (h : ∀ i, (l i).isRw = true → (loc a c i).isRw = true)
    (hj : (set2 loc a c l a' c' j).isRw = true) : (loc a' c' j).isRw = true := by
  unfold set2 at hj
  by_cases k : a' = a ∧ c' = c
  · rw [if_pos k] at hj; obtain ⟨rfl, rfl⟩ := k; exact h j hj
  · rw [if_neg k] at hj; exact hj

theorem NewSmall.of {tag : Bool} {a c p i k : Nat} {w w' : World} {s' : SC} {vm' : Vm} {v : Loc} (hro : RoOk ro) (hi : GInv ro w)
    (ha : a < ro.g.nArena) (hc : c < nClasses ro.g) (hp : p = slotAddr ro.g (ro.regionStart a c) c i k)
    (g : Guar ro t w w') (st : ClassStep ro a c w s' vm' (Loc.set (w.G.loc a c) i v) (w.G.ql a c) (setBlk w.G.blk p (.thr t)) 0 (· = p))
    (he : w' = w.setClass a c s' vm' (Loc.set (w.G.loc a c) i v) (w.G.ql a c) (setBlk w.G.blk p (.thr t)) 0)
    (hT : Taken ro.g c (w.σ.sc a c) s' i k)
    (hut : Untagged ro w → tag = false) (ht : Tagged ro w → tag = true)
    (hTv : TakenVm ro.g tag (ro.regionStart a c) c (w.G.loc a c) (s'.slabs i).canary w.σ.vm vm' i k) : NewSmall m ro t a c w p w' := by
  have G := classGeo ro.g hc
  have h16 := G.size_ge
  have hsl : w'.σ.sc a c = s' := by rw [he]; exact set2_same _ _ _ _
  have hvm : w'.σ.vm = vm' := by rw [he]; rfl
  have hnl : (w.σ.sc a c).live i k = false := by
    cases hl : (w.σ.sc a c).live i k with
    | false => rfl
    | true => have := live_used hl; rw [hT.free] at this; exact absurd this (by simp)
  have husable : Untagged ro w → ∀ x, inRange p (ro.g.usable c) x → vm'.mem x = w.σ.vm.mem x := by
    intro hg x hx
    refine hTv.mem x ?_
    rintro ⟨_, ⟨hcn, hr⟩ | ⟨hg', _⟩⟩
    swap
    · rw [hut hg] at hg'; cases hg'
    rcases canarySize_cases ro.g with ⟨_, e⟩ | ⟨e, _⟩
    · rw [hp] at hx; unfold Cfg.usable at hx; unfold inRange at *; omega
    · rw [hcn] at e; exact absurd e (by simp)
  have hcleared : ∀ x, inRange p (ro.g.usable c) x → vm'.mem x = w.σ.vm.mem x ∨ vm'.mem x = 0#8 := fun x hx =>
    hTv.cleared x (by rw [← hp]; exact hx)
  refine ⟨?_, ?_, ?_, ⟨i, k, ⟨ha, hc, hp, ?_⟩, ?_⟩, ?_, ?_, ?_⟩
  · refine At.ofGuar g (fun q hq => ?_) (fun a' c' => ?_) ?_ ?_ (fun a' c' j hj => ?_)
    · rw [he]; exact st.keep hro hi hq
    · rw [he]
      show set2 w.G.frees a c (w.G.frees a c + 0) a' c' ≤ _
      unfold set2
      by_cases h : a' = a ∧ c' = c
      · rw [if_pos h, h.1, h.2]
      · rw [if_neg h]; exact Nat.le_refl _
    · rw [he]; exact Nat.le_refl _
    · rw [he]; exact Nat.le_refl _
    · rw [he] at hj
      change (set2 w.G.loc a c (Loc.set (w.G.loc a c) i v) a' c' j).isRw = true at hj
      unfold set2 at hj
      by_cases h : a' = a ∧ c' = c
      · rw [if_pos h] at hj
        obtain ⟨rfl, rfl⟩ := h
        by_cases h' : j = i
        · subst h'; exact Or.inr ⟨k, hT.lt, hp.symm⟩
        · unfold Loc.set at hj; rw [if_neg h'] at hj; exact Or.inl hj
      · rw [if_neg h] at hj; exact Or.inl hj
  · intro hb
    have := (hi.blk_slot hro ha hc hT.imax hT.lt).mp (by rw [← hp, hb]; simp)
    rw [hnl] at this; exact absurd this (by simp)
  · rw [he]; exact setBlk_same _ _ _
  · rw [hsl]
    exact (st.live i k hT.imax hT.lt hp.symm).mp (by rw [← hp, setBlk_same]; simp)
  · intro hz hcn
    rw [hsl, hvm, hp]; exact hTv.can hz hcn
  · intro hz hor x hx
    rw [hvm]
    rcases hor with hw | hw | ⟨hf, hcont⟩
    · rw [hp] at hx
      exact hTv.zero hz (Or.inl hw) x hx
    · rw [hp] at hx
      exact hTv.zero hz (Or.inr (Or.inr (ht hw))) x hx
    · rcases hcleared x hx with e | e
      swap
      · exact e
      rw [e]
      rw [hp] at hx
      exact (hcont a c ha hc i k hT.imax hT.lt hz).1 hnl hf x hx
  · intro _ hg x hx
    rw [hvm]; exact husable hg x hx
  · intro _ x hx
    rw [hvm]; exact hcleared x hx

/-- h_malloc.c:598-729. -/
theorem smallAlloc_wp {a n : Nat} {tl : Tl} {w : World} (hro : RoOk ro) (hF : FSys F) (hi : GInv ro w) (hu : Unsealed ro tl)
    (ha : a < ro.g.nArena) (hn : n ≤ ro.g.maxSlab)
    (hD : ∀ ch, Dirty ro w → F (.fatal "detected write after free") ch w) :
    WP m ro t F (smallAlloc ro a n) (fun r tl' w' => tl'.unsealed = tl.unsealed ∧
      match r with
      | none => Idle m ro t w w' ∧ tl'.errno = ENOMEM ∧ (w.G.calm = true → ClassFull ro w a (ro.g.clsOf n))
      | some p => tl'.errno = tl.errno ∧ NewSmall m ro t a (ro.g.clsOf n) w p w') tl w := by
  have hc := clsOf_lt hn
  refine WP.critical (fun _ => smallAlloc_local hro hi) hu fun ch hf => ?_
  simp only
  rw [if_neg (by have : (getSizeInfo n).cls < nClasses ro.g := hc; omega)]
  obtain ⟨P, E, Fl, hinv⟩ := hi.cls a _ ha hc
  have hvm := hi.clsVm a _ ha hc
  have sp := allocateSmall_spec (ch := ch) (e := tl.errno) hro.valid (hro.base ha hc) hc (clsOf_zero hn) hinv hvm
  revert sp
  simp only [Cfg.clsOf] at hc hvm hinv ⊢
  generalize (getSizeInfo n).cls = c at *
  cases allocateSmall ro.g (ro.regionStart a c) c n ch (w.σ.sc a c) w.σ.vm tl.errno with
  | ok r =>
    obtain ⟨_ | p, s', vm', e'⟩ := r
    · rintro ⟨rfl, rfl, h1, h2, h3⟩
      have st := classStep_none hi ha hc h2 h1
      refine ⟨_, (st.trans hro hi (fun q o hq => hq.elim)).quiet setClass_frees, fun w2 hr => ⟨trivial, ?_, rfl, fun hcalm => ?_⟩⟩
      · refine At.rely (At.ofGuar (st.trans hro hi (fun q o hq => hq.elim)) (fun q hq => st.keep hro hi hq) (fun a' c' => ?_)
          (Nat.le_refl _) (Nat.le_refl _) (fun a' c' j hj => Or.inl (setLoc_rw (fun _ h => h) hj))) hr
        show set2 w.G.frees a c (w.G.frees a c + 0) a' c' ≤ _
        unfold set2
        by_cases h : a' = a ∧ c' = c
        · rw [if_pos h, h.1, h.2]
        · rw [if_neg h]; exact Nat.le_refl _
      · rcases h3 with ⟨k, h3⟩ | h3
        · exact absurd h3 ((hf.2.2.1 hcalm).2 k)
        · exact h3
    · rintro ⟨rfl, i, k, v, hp, hv, h1, h2, h3, h4, h5⟩
      have st := classStep_alloc hro hi ha hc hv t h1 h2 h3 h4 h5
      have hnl : (w.σ.sc a c).live i k = false := by
        cases hl : (w.σ.sc a c).live i k with
        | false => rfl
        | true => have := live_used hl; rw [h3.free] at this; exact absurd this (by simp)
      have hnb : w.G.blk p = .nobody := by
        by_contra hb
        have := (hi.blk_slot hro ha hc h3.imax h3.lt).mp (by rw [← hp]; exact hb)
        rw [hnl] at this; exact absurd this (by simp)
      rw [← hp] at st
      have g := st.trans hro hi (hs := fun h => h ≠ .thr t) (by
        rintro q o rfl ho hn
        rw [setBlk_same, hnb]; exact ⟨hn.symm, ho.symm⟩)
      exact ⟨_, g.quiet setClass_frees rfl fun q a' c' i' k' hq => setBlk_ne _ _ fun e => by
        have hb := (hi.blk q).mpr (Or.inl ⟨a', c', i', k', hq⟩)
        exact hb (e ▸ hnb), fun w2 hr => ⟨trivial, rfl, (NewSmall.of hro hi ha hc hp g st rfl h3 hf.untagged hf.tagged h4).rely hr⟩⟩
  | fatal msg =>
    rintro (⟨k, h⟩ | ⟨rfl, h1, h2, i, k, x, h3, h4, h5, h6, h7⟩)
    · exact hF _ _ _ (Or.inl ⟨k, h⟩)
    · refine hD ch ⟨h1, a, c, i, k, x, ha, hc, h2, hinv.rw_lt (isRw_not_fresh h4), h3, ?_, h6, h7⟩
      unfold SC.live; rw [h5]; rfl
  | segv => exact False.elim
  | ub _ => exact False.elim
  | hang => exact False.elim

/-! ### Deallocation -/

/-- The canary of block `p` has been overwritten. -/
def CanaryBad (ro : Ro) (w : World) (p : Nat) : Prop :=
  ro.g.slabCanary = true ∧ ∃ a c i k, IsSmall ro w.σ p a c i k ∧ ro.g.classSize c ≠ 0 ∧
    ¬ CanaryFine ro.g ((w.σ.sc a c).slabs i).canary (p + ro.g.slotSize c - 8) w.σ.vm

theorem Content.canary_ok {w : World} {p : Nat} (hi : GInv ro w) (h : Content ro w) : ¬ CanaryBad ro w p := by
  rintro ⟨h0, a, c, i, k, hs, hz, hn⟩
  obtain ⟨h1, h2, _⟩ := hs.lt hi
  obtain ⟨ha, hc, hp, hl⟩ := hs
  refine hn ?_
  rw [hp]
  exact (h a c ha hc i k h1 h2 hz).2 hl h0

/-- `t` has freed its small block `p`. -/
structure FreedSmall (m : Mode) (ro : Ro) (t p : Nat) (expected : Option Nat) (w w' : World) : Prop where
  mine : Mine t p w
  at_ : At m ro t (· = p) (fun a c => if (a, c) = ro.sizeClassOf p then 1 else 0) 0 w w'
  blk : w'.G.blk p ≠ .thr t
  small : ∃ a c i k, IsSmall ro w.σ p a c i k ∧ (Untagged ro w → CanaryOk ro w p a c i) ∧ (∀ n, expected = some n → n = ro.g.classSize c) ∧
    (m = .seq → ro.g.slotWait c ≤ slotDelay ro.g c (w'.σ.sc a c) (w'.G.ql a c) i k) ∧
    (m = .seq → ro.g.classSize c ≠ 0 → ro.g.zeroOnFree = true → ∀ x, inRange p (ro.g.usable c) x → w'.σ.vm.mem x = 0#8)

theorem inSlab_lt (hro : RoOk ro) {p : Nat} (h : ro.inSlab p = true) : p < W64 := by
  have := hro.hi
  unfold Ro.inSlab at h
  simp only [Bool.and_eq_true, decide_eq_true_eq] at h
  omega

/-- The slot of a live block is determined by its address. -/
theorem IsSmall.cls (hro : RoOk ro) {w : World} (hi : GInv ro w) {p a c i k : Nat} (h : IsSmall ro w.σ p a c i k) :
    ro.sizeClassOf p = (a, c) := by
  obtain ⟨h1, h2, _⟩ := h.lt hi
  obtain ⟨ha, hc, hp, _⟩ := h
  refine hro.sizeClassOf ha hc (hro.region_cell ha hc ?_)
  rw [hp]
  refine slot_in_region hro ha hc h1 h2 ?_
  have := (classGeo ro.g hc).size_ge
  unfold inRange; omega

/-- The slot of a small block is determined by its address. -/
theorem IsSmall.uniq (hro : RoOk ro) {w : World} (hi : GInv ro w) {p a c i k a' c' i' k' : Nat} (h : IsSmall ro w.σ p a c i k)
    (h' : IsSmall ro w.σ p a' c' i' k') : a' = a ∧ c' = c ∧ i' = i ∧ k' = k := by
  have e1 := h.cls hro hi
  have e2 := h'.cls hro hi
  rw [e1] at e2
  simp only [Prod.mk.injEq] at e2
  obtain ⟨rfl, rfl⟩ := e2
  obtain ⟨l1, l2, _⟩ := h.lt hi
  obtain ⟨l3, l4, _⟩ := h'.lt hi
  obtain ⟨ha, hc, hp, _⟩ := h
  obtain ⟨_, _, hp', _⟩ := h'
  have G := classGeo ro.g hc
  have h16 := G.size_ge
  have r1 : inRange (slabAddr (ro.regionStart a c) (ro.g.slabSize c) i) (ro.g.slabSize c) p := by
    rw [hp]; exact slot_range_slab hc l2 (by unfold inRange; omega)
  have r2 : inRange (slabAddr (ro.regionStart a c) (ro.g.slabSize c) i') (ro.g.slabSize c) p := by
    rw [hp']; exact slot_range_slab hc l4 (by unfold inRange; omega)
  have ei := slab_disjoint hc r2 r1
  subst ei
  refine ⟨rfl, rfl, rfl, ?_⟩
  rw [hp, slotAddr_eq, slotAddr_eq] at hp'
  have : k * ro.g.slotSize c = k' * ro.g.slotSize c := by omega
  exact (Nat.eq_of_mul_eq_mul_right (by omega) this).symm

theorem blk_nobody_of_not_live (hro : RoOk ro) {w : World} (hi : GInv ro w) {p : Nat} (hs : ro.inSlab p = true)
    (h : ∀ i k, p = slotAddr ro.g (ro.regionStart (ro.sizeClassOf p).1 (ro.sizeClassOf p).2) (ro.sizeClassOf p).2 i k →
      (w.σ.sc (ro.sizeClassOf p).1 (ro.sizeClassOf p).2).live i k = false) : w.G.blk p = .nobody := by
  by_contra hb
  rcases (hi.blk p).mp hb with ⟨a, c, i, k, h1⟩ | ⟨s, g, h1⟩
  · have e := h1.cls hro hi
    obtain ⟨_, _, hp, hl⟩ := h1
    have := h i k (by rw [e]; exact hp)
    rw [e] at this
    rw [this] at hl; exact absurd hl (by simp)
  · have := has_not_inSlab hro hi h1
    rw [this] at hs; exact absurd hs (by simp)

/-- h_malloc.c:771-911. -/
theorem smallFree_wp {p : Nat} {expected : Option Nat} {tl : Tl} {w : World} (hro : RoOk ro) (hF : FSys F) (hi : GInv ro w)
    (hu : Unsealed ro tl) (hp : FreeArg m t p w) (hs : ro.inSlab p = true)
    (hN : ∀ msg ch, w.G.blk p = .nobody → F (.fatal msg) ch w)
    (hC : ∀ msg ch, Mine t p w → CanaryBad ro w p → F (.fatal msg) ch w)
    (hE : ∀ msg ch a c i k n, Mine t p w → expected = some n → IsSmall ro w.σ p a c i k → n ≠ ro.g.classSize c → F (.fatal msg) ch w) :
    WP m ro t F (smallFree ro p expected) (fun _ tl' w' => tl'.unsealed = tl.unsealed ∧
      (tl'.errno = tl.errno ∨ ∃ ch : Choice, tl'.errno = ch.label 0 tl.errno) ∧ FreedSmall m ro t p expected w w') tl w := by
  obtain ⟨ha, hc, hcell⟩ := hro.sizeClassOf_lt hs
  refine WP.critical (fun hm => smallFree_local hro hi (inSlab_lt hro hs) ?_) hu fun ch hf => ?_
  · rcases hp with hp | ⟨h, _⟩
    · exact hp.blk
    · rw [hm] at h; cases h
  simp only
  rw [if_neg (by omega)]
  have hn0 := @blk_nobody_of_not_live ro hro w hi p hs
  have e1 : ro.sizeClassOf p = ((ro.sizeClassOf p).1, (ro.sizeClassOf p).2) := rfl
  generalize (ro.sizeClassOf p).1 = a at *
  generalize (ro.sizeClassOf p).2 = c at *
  obtain ⟨P, E, Fl, hinv⟩ := hi.cls a c ha hc
  have hvm := hi.clsVm a c ha hc
  have hmine : w.G.blk p ≠ .nobody → Mine t p w := by
    intro h
    rcases hp with h1 | ⟨_, h1⟩
    · exact h1
    · exact absurd h1 h
  have hm0 : ∀ i k, p = slotAddr ro.g (ro.regionStart a c) c i k → (w.σ.sc a c).live i k = true → Mine t p w := by
    intro i k h1 h2
    exact hmine ((hi.blk p).mpr (Or.inl ⟨a, c, i, k, ha, hc, h1, h2⟩))
  have sp := deallocateSmall_spec (p := p) (expected := expected) (ch := ch) (e := tl.errno) hro.valid hro.freeQ (hro.base ha hc) hc
    (inSlab_lt hro hs) hinv hvm
  revert sp
  cases deallocateSmall ro.g (ro.regionStart a c) c p expected ch (w.σ.sc a c) w.σ.vm tl.errno with
  | ok r =>
    obtain ⟨s', vm', e'⟩ := r
    rintro ⟨h1, i, k, loc', ql', out, r, h2, D⟩
    have hl : (w.σ.sc a c).live i k = true := by unfold SC.live; rw [D.wasUsed, D.notQuar]; rfl
    have hM := hm0 i k h2 hl
    have st := classStep_free hro hi ha hc (fun h => (hf.2.2.1 h).2) D
    rw [← h2] at st
    have g := st.trans hro hi (hs := fun h => h ≠ .thr t) (by
      rintro q o rfl ho hn
      rw [setBlk_same, hM.blk]; exact ⟨ho.symm, hn.symm⟩)
    have hwait : ro.g.slotWait c ≤ slotDelay ro.g c (set2 w.σ.sc a c s' a c) (set2 w.G.ql a c ql' a c) i k := by
      rw [set2_same, set2_same]
      obtain ⟨pushed, q⟩ := D.step
      have q1 := q.self
      have q2 := q.idx
      obtain ⟨l1, l2⟩ := lenQ_zero hc hro.valid
      unfold Cfg.slotWait slotDelay
      by_cases hR : ro.g.slabQRandom = 0
      · rw [if_pos hR]
        rw [if_neg (by simpa using hR)] at q1
        by_cases hQ : ro.g.slabQQueue = 0
        · have : lenQ ro.g c = 0 := by by_contra h; exact l1 h hQ
          rw [this]; exact Nat.zero_le _
        · rw [if_pos hQ] at q1
          rw [q1.2]
          rw [q1.1, if_pos rfl] at q2
          simp only
          have hq : (w.σ.sc a c).qidx < lenQ ro.g c := hinv.qarr.idx (by omega)
          rw [q2, delay_self hq]
      · rw [if_neg hR]
        rw [if_pos hR] at q1
        obtain ⟨j, q1⟩ := q1
        rw [q1]
    refine ⟨_, ⟨g, fun a' c' => ?_, Nat.le_refl _, fun q a' c' i' k' hq => ?_, fun _ => Nat.le_refl _⟩, fun w2 hr => ⟨trivial, ?_, hM, ?_, ?_, a, c, i, k, ⟨ha, hc, h2, hl⟩, ?_, h1, ?_, ?_⟩⟩
    · show set2 w.G.frees a c (w.G.frees a c + 1) a' c' ≤ _
      unfold set2 freesIn
      by_cases h : a' = a ∧ c' = c
      · have l := IsSmall.lt hi (p := p) ⟨ha, hc, h2, hl⟩
        have := classMem_region hc (slotAddr_classMem (a := a) (ro := ro) hc l.1 l.2.1)
        rw [← h2] at this
        rw [if_pos h, h.1, h.2]; simp only; rw [if_pos ⟨trivial, trivial, this⟩]
      · rw [if_neg h]; exact Nat.le_add_right _ _
    · by_cases e : q = p
      · right
        subst e
        obtain ⟨rfl, rfl, rfl, rfl⟩ := IsSmall.uniq hro hi ⟨ha, hc, h2, hl⟩ hq
        show _ ≤ _ + set2 w.G.frees a' c' (w.G.frees a' c' + 1) a' c'
        rw [set2_same]
        exact Nat.add_le_add_right hwait (w.G.frees a' c' + 1)
      · exact Or.inl (setBlk_ne _ _ e)
    · rcases D.errno with h | ⟨_, h⟩
      · exact Or.inl h
      · exact Or.inr ⟨ch, h⟩
    · refine At.rely (At.ofGuar g (fun q hq => st.keep hro hi hq) (fun a' c' => ?_) (Nat.le_refl _) (Nat.le_refl _)
        (fun a' c' j hj => Or.inl (setLoc_rw (fun i h => by rw [D.isRw] at h; exact (Bool.and_eq_true _ _ ▸ h).1) hj))) hr
      show set2 w.G.frees a c (w.G.frees a c + 1) a' c' ≤ _
      unfold set2
      rw [e1]
      by_cases h : a' = a ∧ c' = c
      · rw [if_pos h, h.1, h.2, if_pos rfl]
      · rw [if_neg h, if_neg (by simpa using h)]; exact Nat.le_refl _
    · intro hb
      have := (hr.blk g.inv p).mp hb
      have e2 : (w.setClass a c s' vm' loc' ql' (setBlk w.G.blk p .nobody) 1).G.blk p = .nobody := setBlk_same _ _ _
      change (w.setClass a c s' vm' loc' ql' (setBlk w.G.blk p .nobody) 1).G.blk p = _ at this
      rw [e2] at this; exact absurd this (by simp)
    · intro hg hz hcn
      rw [h2]; exact D.intact (hf.untagged hg) hz hcn
    · intro hm
      have e2 : w2 = w.setClass a c s' vm' loc' ql' (setBlk w.G.blk p .nobody) 1 := hr.seq hm
      rw [e2]
      show _ ≤ slotDelay ro.g c (set2 w.σ.sc a c s' a c) (set2 w.G.ql a c ql' a c) i k
      exact hwait
    · intro hm hz hzf x hx
      have e2 : w2 = w.setClass a c s' vm' loc' ql' (setBlk w.G.blk p .nobody) 1 := hr.seq hm
      rw [e2]
      rw [h2] at hx
      exact D.zeroed hz hzf x hx
  | fatal msg =>
    rintro (⟨n, h1, h2⟩ | h | ⟨h1, h2, i, k, h3, h4, h5⟩ | ⟨k, h⟩)
    · by_cases hb : w.G.blk p = .nobody
      · exact hN msg ch hb
      · have hn1 : ¬ ∀ i k, p = slotAddr ro.g (ro.regionStart a c) c i k → (w.σ.sc a c).live i k = false := fun h => hb (hn0 h)
        push_neg at hn1
        obtain ⟨i, k, h3, h4⟩ := hn1
        exact hE msg ch a c i k n (hmine hb) h1 ⟨ha, hc, h3, by simpa using h4⟩ h2
    · exact hN msg ch (hn0 h)
    · by_cases hb : w.G.blk p = .nobody
      · exact hN msg ch hb
      · refine hC msg ch (hmine hb) ⟨h2, a, c, i, k, ⟨ha, hc, h3, ?_⟩, h1, h5⟩
        refine (hi.blk_slot hro ha hc ?_ ?_).mp (by rw [← h3]; exact hb)
        · exact hinv.rw_lt (isRw_not_fresh (used_isRw hinv h4))
        · exact hinv.bits.used_lt h4
    · exact hF _ _ _ (Or.inl ⟨k, h⟩)
  | segv => exact False.elim
  | ub _ => exact False.elim
  | hang => exact False.elim

/-- h_malloc.c:1722-1758. -/
theorem smallCheck_wp {p : Nat} {tl : Tl} {w : World} (hro : RoOk ro) (hi : GInv ro w)
    (hu : Unsealed ro tl) (hs : ro.inSlab p = true)
    (hN : ∀ msg ch, w.G.blk p = .nobody → F (.fatal msg) ch w)
    (hC : ∀ msg ch, w.G.blk p ≠ .nobody → CanaryBad ro w p → F (.fatal msg) ch w) :
    WP m ro t F (smallCheck ro p) (fun _ tl' w' => tl' = tl ∧ Rely m ro t w w' ∧
      ∃ a c i k, IsSmall ro w.σ p a c i k ∧ (Untagged ro w → CanaryOk ro w p a c i)) tl w := by
  obtain ⟨ha, hc, hcell⟩ := hro.sizeClassOf_lt hs
  refine WP.read (fun _ => smallCheck_local hro hi (inSlab_lt hro hs)) hi hu fun ch hf => ?_
  simp only
  rw [if_neg (by omega)]
  have hn0 := @blk_nobody_of_not_live ro hro w hi p hs
  have e1 : ro.sizeClassOf p = ((ro.sizeClassOf p).1, (ro.sizeClassOf p).2) := rfl
  generalize (ro.sizeClassOf p).1 = a at *
  generalize (ro.sizeClassOf p).2 = c at *
  obtain ⟨P, E, Fl, hinv⟩ := hi.cls a c ha hc
  have hvm := hi.clsVm a c ha hc
  have sp := memoryCorruptionCheckSmall_spec (p := p) (tag := tagging ro.g ch) hro.valid (hro.base ha hc) hc (inSlab_lt hro hs) hinv hvm
  revert sp
  cases memoryCorruptionCheckSmall ro.g (tagging ro.g ch) (ro.regionStart a c) c p (w.σ.sc a c) w.σ.vm with
  | ok r =>
    rintro ⟨i, k, h1, h2, h3⟩
    exact ⟨rfl, rfl, fun w2 hr => ⟨trivial, hr, a, c, i, k, ⟨ha, hc, h1, h2⟩, fun h => h3 (hf.untagged h)⟩⟩
  | fatal msg =>
    rintro (h | ⟨h1, h2, i, k, h3, h4, h5⟩)
    · exact hN msg ch (hn0 h)
    · by_cases hb : w.G.blk p = .nobody
      · exact hN msg ch hb
      · refine hC msg ch hb ⟨h2, a, c, i, k, ⟨ha, hc, h3, ?_⟩, h1, h5⟩
        refine (hi.blk_slot hro ha hc ?_ ?_).mp (by rw [← h3]; exact hb)
        · exact hinv.rw_lt (isRw_not_fresh (used_isRw hinv h4))
        · exact hinv.bits.used_lt h4
  | segv => exact False.elim
  | ub _ => exact False.elim
  | hang => exact False.elim

/-- What trimming class `c` of arena `a` does in a sequential run: some pages lose their access, which is what the result
reports, nothing of another class changes, and no cached slab is left unless the kernel refuses. -/
structure TrimSeq (ro : Ro) (a c : Nat) (w : World) (b : Bool) (w' : World) : Prop where
  prot : ∀ pg, w'.σ.vm.prot pg = w.σ.vm.prot pg ∨ w'.σ.vm.prot pg = .none
  res : b = true ↔ ∃ pg, w.σ.vm.prot pg = .rw ∧ w'.σ.vm.prot pg ≠ .rw
  rest : ∀ a' c', ¬ (a' = a ∧ c' = c) → w'.σ.sc a' c' = w.σ.sc a' c'
  empty : w.G.calm = true → (w'.σ.sc a c).emptyTotal = 0

/-- h_malloc.c:1886-1938. -/
theorem smallTrim_wp {a c : Nat} {tl : Tl} {w : World} (hro : RoOk ro) (hF : FSys F) (hi : GInv ro w)
    (hu : Unsealed ro tl) (ha : a < ro.g.nArena) (hc : c < nClasses ro.g) (hc0 : c ≠ 0) :
    WP m ro t F (smallTrim ro a c) (fun b tl' w' => tl'.unsealed = tl.unsealed ∧ Idle m ro t w w' ∧ (m = .seq → TrimSeq ro a c w b w')) tl w := by
  refine WP.critical (fun _ => smallTrim_local hro hi ha hc) hu fun ch hf => ?_
  simp only
  obtain ⟨P, E, Fl, hinv⟩ := hi.cls a c ha hc
  have hvm := hi.clsVm a c ha hc
  have G := classGeo ro.g hc
  have hz : ro.g.classSize c ≠ 0 := fun h => hc0 (G.zero_iff.mpr h)
  have sp := trimClass_spec (ch := ch) (e := tl.errno) hro.valid hro.freeQ (hro.base ha hc) hc hinv hvm
  revert sp
  cases trimClass ro.g (ro.regionStart a c) c ch (w.σ.sc a c) w.σ.vm tl.errno with
  | ok r =>
    obtain ⟨b, s', vm', e'⟩ := r
    rintro ⟨loc', T, vm1, ⟨P', E', F', h0, hE⟩, h1, h2, h3, h4, h5⟩
    have st := classStep_trim hro hi ha hc ⟨P', E', F', h0⟩ h1 h2 h4 h5
    refine ⟨_, (st.trans hro hi (fun q o hq => hq.elim)).quiet setClass_frees, fun w2 hr => ⟨trivial, ?_, fun hm => ?_⟩⟩
    · refine At.rely (At.ofGuar (st.trans hro hi (fun q o hq => hq.elim)) (fun q hq => st.keep hro hi hq) (fun a' c' => ?_)
        (Nat.le_refl _) (Nat.le_refl _) (fun a' c' j hj => Or.inl (setLoc_rw h2.isRw hj))) hr
      show set2 w.G.frees a c (w.G.frees a c + 0) a' c' ≤ _
      unfold set2
      by_cases h : a' = a ∧ c' = c
      · rw [if_pos h, h.1, h.2]
      · rw [if_neg h]; exact Nat.le_refl _
    · have e := hr.seq hm
      rw [e]
      have hpr : ∀ pg, vm'.prot pg = if ∃ i, i ∈ T ∧ inPages (slabAddr (ro.regionStart a c) (ro.g.slabSize c) i) (ro.g.slabSize c) pg then .none
          else w.σ.vm.prot pg := fun pg => by rw [h4]; exact h2.prot pg
      refine ⟨fun pg => ?_, ?_, fun a' c' hn => ?_, fun hcalm => ?_⟩
      · show vm'.prot pg = _ ∨ vm'.prot pg = _
        rw [hpr]; split
        · exact Or.inr rfl
        · exact Or.inl rfl
      · show b = true ↔ ∃ pg, w.σ.vm.prot pg = .rw ∧ vm'.prot pg ≠ .rw
        rw [h3, decide_eq_true_eq]
        constructor
        · intro hT
          obtain ⟨i, T', rfl⟩ := List.exists_cons_of_ne_nil hT
          have hmem : i ∈ i :: T' := List.mem_cons_self
          have hrw := ((h2.mem_T i).mp hmem).1
          have hbase := (hro.base ha hc).mod
          have hsm := G.slab_mod; have hsg := G.slab_ge
          have hx : inRange (slabAddr (ro.regionStart a c) (ro.g.slabSize c) i) (ro.g.slabSize c)
              (slabAddr (ro.regionStart a c) (ro.g.slabSize c) i) := by unfold inRange; omega
          refine ⟨slabAddr (ro.regionStart a c) (ro.g.slabSize c) i / PAGE, hvm.rw i _ hrw hz hx, ?_⟩
          rw [hpr, if_pos ⟨i, hmem, by unfold inPages; omega⟩]
          simp
        · rintro ⟨pg, hp1, hp2⟩ rfl
          rw [hpr, if_neg (by simp)] at hp2
          exact hp2 hp1
      · show (if a' = a ∧ c' = c then _ else _) = _
        rw [if_neg hn]
      · show (if a = a ∧ c = c then s' else _).emptyTotal = 0
        rw [if_pos ⟨rfl, rfl⟩]
        have : E' = [] := hE.resolve_right fun ⟨k, hk⟩ => (hf.2.2.1 hcalm).2 k hk
        have := h0.etot
        simpa [‹E' = []›] using this
  | fatal msg =>
    rintro ⟨k, h⟩
    exact hF _ _ _ (Or.inl ⟨k, h⟩)
  | segv => exact False.elim
  | ub _ => exact False.elim
  | hang => exact False.elim

end HM
