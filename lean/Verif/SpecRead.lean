import Verif.SpecAligned
/-
The functions that free blocks or query the allocator (h_malloc.c:1675-1865, 1877-1996).
-/
namespace HM

variable {ro : Ro} {m : Mode} {t : Nat} {F : Bad → Choice → World → Prop}

/-! ### Freeing -/

theorem FreeArg.mine_of_rely {p : Nat} {w w1 : World} (h : FreeArg m t p w) (r : Rely m ro t w w1) (hm : Mine t p w1) : Mine t p w := by
  rcases h with h | ⟨h2, _⟩
  · exact h
  · rw [r.seq h2] at hm; exact hm

/-- What the caller knows about its small block after other threads have run, and before. -/
theorem small_back (hro : RoOk ro) {p a c i k : Nat} {w w1 : World} (hi : GInv ro w) (r : Rely m ro t w w1) (hb : w.G.blk p = .thr t)
    (h1 : IsSmall ro w1.σ p a c i k) : IsSmall ro w.σ p a c i k ∧ ((w1.σ.sc a c).slabs i).canary = ((w.σ.sc a c).slabs i).canary ∧
      ∀ x, inRange p (ro.g.slotSize c) x → w1.σ.vm.mem x = w.σ.vm.mem x := by
  have hk := r.keep hi hb
  rcases (hi.blk p).mp (by rw [hb]; simp) with ⟨a', c', i', k', h⟩ | ⟨s, g, h⟩
  · obtain ⟨k1, k2, k3⟩ := hk.small a' c' i' k' h
    obtain ⟨rfl, rfl, rfl, rfl⟩ := k1.uniq hro (r.inv hi) h1
    exact ⟨h, k2, k3⟩
  · exact (not_small_has hro (r.inv hi) h1 (hk.large s g h).1).elim

theorem CanaryOk.back (hro : RoOk ro) {p a c i k : Nat} {w w1 : World} (hi : GInv ro w) (r : Rely m ro t w w1) (hb : w.G.blk p = .thr t)
    (h1 : IsSmall ro w1.σ p a c i k) (h : CanaryOk ro w1 p a c i) : CanaryOk ro w p a c i := by
  obtain ⟨_, k2, k3⟩ := small_back hro hi r hb h1
  intro hz hcn
  have := (classGeo ro.g h1.2.1).size_ge
  rw [← k2]
  exact (h hz hcn).congr fun j hj => (k3 _ (by unfold inRange; omega)).symm

theorem FreedSmall.pre (hro : RoOk ro) {p : Nat} {expected : Option Nat} {w0 w w' : World} (hi : GInv ro w0) (hp : FreeArg m t p w0)
    (r : Rely m ro t w0 w) (h : FreedSmall m ro t p expected w w') : FreedSmall m ro t p expected w0 w' := by
  have hm := hp.mine_of_rely r h.mine
  obtain ⟨a, c, i, k, h1, h2, h3, h4, h5⟩ := h.small
  exact ⟨hm, Idle.pre hi r h.at_, h.blk, a, c, i, k, (small_back hro hi r hm.blk h1).1, fun hg => (h2 (hg.env (r.env hi))).back hro hi r hm.blk h1, h3, h4, h5⟩

theorem FreedSmall.rely {p : Nat} {expected : Option Nat} {w0 w w' : World} (h : FreedSmall m ro t p expected w0 w) (r : Rely m ro t w w') :
    FreedSmall m ro t p expected w0 w' := by
  obtain ⟨a, c, i, k, h1, h2, h3, h4, h5⟩ := h.small
  refine ⟨h.mine, h.at_.rely r, fun e => h.blk ((r.blk h.at_.inv p).mp e), a, c, i, k, h1, h2, h3, fun hm => ?_, fun hm => ?_⟩
  · rw [r.seq hm]; exact h4 hm
  · rw [r.seq hm]; exact h5 hm

theorem FreedLarge.rely {p : Nat} {expected : Option Nat} {w0 w w' : World} (h : FreedLarge m ro t p expected w0 w) (r : Rely m ro t w w') :
    FreedLarge m ro t p expected w0 w' := by
  obtain ⟨s, g, h1, h2, h3, h5, h4⟩ := h.has
  refine ⟨h.mine, h.at_.rely r, fun e => h.blk ((r.blk h.at_.inv p).mp e), s, g, h1, h2, fun hm => ?_, fun k1 k2 pg k3 => ?_, fun hm => ?_⟩
  · rw [r.seq hm]; exact h3 hm
  · have := h5 k1 k2 pg k3
    have d := r.delay h.at_.inv
    have := d.page pg
    have := d.pushes
    omega
  · rw [r.seq hm]; exact h4 hm

/-- What an abort during `free(p)` shows: `p` is not a live block, its canary has been overwritten, or it has another size
than expected. -/
structure FFree (ro : Ro) (t p : Nat) (small large : Option Nat) (w : World) (F : Bad → Choice → World → Prop) : Prop where
  nobody : w.G.blk p = .nobody → ∀ msg ch w1, F (.fatal msg) ch w1
  canary : Mine t p w → CanaryBad ro w p → ∀ msg ch w1, F (.fatal msg) ch w1
  small : ∀ a c i k n, Mine t p w → small = some n → IsSmall ro w.σ p a c i k → n ≠ ro.g.classSize c → ∀ msg ch w1, F (.fatal msg) ch w1
  large : ∀ s g n, Mine t p w → large = some n → w.σ.rt.Has ⟨p, s, g⟩ → s ≠ getLargeSizeClass ro.g n → ∀ msg ch w1, F (.fatal msg) ch w1

/-- Block `p` has been freed. -/
def Freed (m : Mode) (ro : Ro) (t p : Nat) (small large : Option Nat) (w w' : World) : Prop :=
  (ro.inSlab p = true ∧ FreedSmall m ro t p small w w') ∨ (ro.inSlab p = false ∧ FreedLarge m ro t p large w w')

theorem CanaryBad.back (hro : RoOk ro) {p : Nat} {w w1 : World} (hi : GInv ro w) (r : Rely m ro t w w1) (hb : w.G.blk p = .thr t)
    (h : CanaryBad ro w1 p) : CanaryBad ro w p := by
  obtain ⟨h0, a, c, i, k, h1, h2, h4⟩ := h
  obtain ⟨k1, k2, k3⟩ := small_back hro hi r hb h1
  have := (classGeo ro.g h1.2.1).size_ge
  refine ⟨h0, a, c, i, k, k1, h2, fun hf => h4 ?_⟩
  rw [k2]
  exact hf.congr fun j hj => k3 _ (by unfold inRange; omega)

/-- `deallocate_small` after the metadata has been unsealed. -/
theorem freeSmall_wp {p : Nat} {expected : Option Nat} {tl : Tl} {w w1 : World} {large : Option Nat} (hro : RoOk ro) (hF : FSys F)
    (hi : GInv ro w) (hr : Rely m ro t w w1) (hu : Unsealed ro tl) (hp : FreeArg m t p w) (hs : ro.inSlab p = true) (hA : FFree ro t p expected large w F) :
    WP m ro t F (smallFree ro p expected) (fun _ tl' w' => tl'.unsealed = tl.unsealed ∧
      (tl'.errno = tl.errno ∨ ∃ ch : Choice, tl'.errno = ch.label 0 tl.errno) ∧ FreedSmall m ro t p expected w w') tl w1 := by
  have hi1 := hr.inv hi
  refine (smallFree_wp hro hF hi1 hu (hp.idle hro hi hr) hs ?_ ?_ ?_).mono fun _ tl' w' h => ⟨h.1, h.2.1, h.2.2.pre hro hi hp hr⟩
  · intro msg ch hb
    refine hA.nobody ?_ msg ch w1
    rcases hp with h | ⟨_, h⟩
    · rw [(hr.keep hi h.blk).blk, h.blk] at hb; exact absurd hb (by simp)
    · exact h
  · intro msg ch hm hb
    have hm0 := hp.mine_of_rely hr hm
    exact hA.canary hm0 (hb.back hro hi hr hm0.blk) msg ch w1
  · intro msg ch a c i k n hm he hsm hne
    have hm0 := hp.mine_of_rely hr hm
    exact hA.small a c i k n hm0 he (small_back hro hi hr hm0.blk hsm).1 hne msg ch w1

theorem freeLarge_wp {p : Nat} {expected : Option Nat} {tl : Tl} {w w1 : World} {small : Option Nat} (hro : RoOk ro) (hF : FSys F)
    (hi : GInv ro w) (hr : Rely m ro t w w1) (hp : FreeArg m t p w) (hs : ro.inSlab p = false) (hA : FFree ro t p small expected w F) :
    WP m ro t F (deallocateLarge ro p expected) (fun _ tl' w' => tl'.unsealed = true ∧ FreedLarge m ro t p expected w w') tl w1 := by
  have hi1 := hr.inv hi
  have back : ∀ {s g}, Mine t p w → w1.σ.rt.Has ⟨p, s, g⟩ → w.σ.rt.Has ⟨p, s, g⟩ := by
    intro s g h1 h2
    obtain ⟨s', g', h3⟩ := Mine.has hro hi (by rw [h1.blk]; simp) hs
    have := hi1.has_unique h2 ((hr.keep hi h1.blk).large s' g' h3).1 rfl
    rw [this]; exact h3
  refine (deallocateLarge_wp hro hF hi1 (hp.idle hro hi hr) hs ?_ ?_).mono fun _ tl' w' h => ⟨h.1, ?_⟩
  · intro ch w2 _ hb
    refine hA.nobody ?_ _ ch w2
    rcases hp with h | ⟨_, h⟩
    · rw [(hr.keep hi h.blk).blk, h.blk] at hb; exact absurd hb (by simp)
    · exact h
  · intro ch w2 s n g _ hm he hh hne
    have hm0 := hp.mine_of_rely hr hm
    exact hA.large s g n hm0 he (back hm0 hh) hne _ ch w2
  · obtain ⟨s, g, h1, h2, h3, h5, h4⟩ := h.2.has
    have hm0 := hp.mine_of_rely hr h.2.mine
    refine ⟨hm0, Idle.pre hi hr h.2.at_, h.2.blk, s, g, back hm0 h1, h2, h3, fun k1 k2 pg k3 => ?_, fun hm hc => h4 hm (by rw [hr.calm hi]; exact hc)⟩
    have := h5 k1 k2 pg k3
    have := (hr.delay hi).pushes
    omega

/-- h_malloc.c:1675-1694. -/
theorem hFree_wp {p : Nat} {tl : Tl} {w : World} (hro : RoOk ro) (hF : FSys F) (hi : GInv ro w) (hp : p ≠ 0 → FreeArg m t p w)
    (hA : FFree ro t p none none w F) :
    WP m ro t F (hFree ro p) (fun _ tl' w' => (p = 0 ∧ tl' = tl ∧ w' = w) ∨ (p ≠ 0 ∧ tl'.unsealed = false ∧
      (tl'.errno = tl.errno ∨ (ro.inSlab p = true ∧ ∃ ch : Choice, tl'.errno = ch.label 0 tl.errno)) ∧ Freed m ro t p none none w w')) tl w := by
  unfold hFree
  by_cases h0 : p = 0
  · rw [if_pos h0]; exact WP.pure (Or.inl ⟨h0, rfl, rfl⟩)
  rw [if_neg h0]
  cases hs : ro.inSlab p with
  | true =>
    rw [if_pos rfl]
    refine WP.andThen (WP.unseal hi fun w1 r1 => WP.andThen ((freeSmall_wp hro hF hi r1 (fun _ => rfl) (hp h0) hs hA).mono fun _ tl2 w2 => ?_))
    rintro ⟨_, h2, h3⟩
    exact WP.sealM h3.at_.inv fun w3 r3 => Or.inr ⟨h0, rfl, h2.imp id fun h => ⟨rfl, h⟩, Or.inl ⟨hs, h3.rely r3⟩⟩
  | false =>
    rw [if_neg (by simp)]
    refine WP.andThen (WP.getErrno hi fun w1 r1 => WP.andThen ((freeLarge_wp hro hF hi r1 (hp h0) hs hA).mono fun _ tl2 w2 => ?_))
    rintro ⟨_, h3⟩
    refine WP.andThen (WP.setErrno h3.at_.inv fun w3 r3 => WP.sealM (r3.inv h3.at_.inv) fun w4 r4 => Or.inr ⟨h0, rfl, Or.inl rfl, Or.inr ⟨hs, (h3.rely r3).rely r4⟩⟩)

/-- h_malloc.c:1700-1720. -/
theorem hFreeSized_wp {p n : Nat} {tl : Tl} {w : World} (hro : RoOk ro) (hF : FSys F) (hi : GInv ro w) (hp : p ≠ 0 → FreeArg m t p w)
    (hA : FFree ro t p (some (getSizeInfo (adjustSizeForCanary ro.g n)).size) (some (adjustSizeForCanary ro.g n)) w F) :
    WP m ro t F (hFreeSized ro p n) (fun _ tl' w' => (p = 0 ∧ tl' = tl ∧ w' = w) ∨ (p ≠ 0 ∧ tl'.unsealed = false ∧
      Freed m ro t p (some (getSizeInfo (adjustSizeForCanary ro.g n)).size) (some (adjustSizeForCanary ro.g n)) w w')) tl w := by
  unfold hFreeSized
  by_cases h0 : p = 0
  · rw [if_pos h0]; exact WP.pure (Or.inl ⟨h0, rfl, rfl⟩)
  rw [if_neg h0]
  simp only
  cases hs : ro.inSlab p with
  | true =>
    rw [if_pos rfl]
    refine WP.andThen (WP.unseal hi fun w1 r1 => WP.andThen ((freeSmall_wp hro hF hi r1 (fun _ => rfl) (hp h0) hs hA).mono fun _ tl2 w2 => ?_))
    rintro ⟨_, h2, h3⟩
    exact WP.sealM h3.at_.inv fun w3 r3 => Or.inr ⟨h0, rfl, Or.inl ⟨hs, h3.rely r3⟩⟩
  | false =>
    rw [if_neg (by simp)]
    refine WP.andThen ((freeLarge_wp hro hF hi (Rely.refl hi) (hp h0) hs hA).mono fun _ tl2 w2 => ?_)
    rintro ⟨_, h3⟩
    exact WP.sealM h3.at_.inv fun w3 r3 => Or.inr ⟨h0, rfl, Or.inr ⟨hs, h3.rely r3⟩⟩

/-! ### Usable size -/

/-- The number of bytes of block `p` the application may use. -/
def UsableIs (ro : Ro) (w : World) (p u : Nat) : Prop :=
  (∃ a c i k, IsSmall ro w.σ p a c i k ∧ u = if ro.g.classSize c = 0 then 0 else ro.g.usable c) ∨ ∃ g, w.σ.rt.Has ⟨p, u, g⟩

/-- h_malloc.c:1760-1790. -/
theorem hUsableSize_wp {p : Nat} {tl : Tl} {w : World} (hro : RoOk ro) (hi : GInv ro w) (hp : p ≠ 0 → FreeArg m t p w)
    (hA : FFree ro t p none none w F) :
    WP m ro t F (hUsableSize ro p) (fun u tl' w' => tl'.errno = tl.errno ∧ Idle m ro t w w' ∧ (m = .seq → w' = w) ∧
      ((p = 0 ∧ u = 0 ∧ tl' = tl) ∨ (p ≠ 0 ∧ tl'.unsealed = false ∧ Mine t p w ∧ UsableIs ro w p u ∧
        ∀ a c i k, IsSmall ro w.σ p a c i k → Untagged ro w → CanaryOk ro w p a c i))) tl w := by
  unfold hUsableSize
  by_cases h0 : p = 0
  · rw [if_pos h0]; exact WP.pure ⟨rfl, At.refl hi, fun _ => rfl, Or.inl ⟨h0, rfl, rfl⟩⟩
  rw [if_neg h0]
  have hp := hp h0
  have nob : ∀ {w1}, Rely m ro t w w1 → w1.G.blk p = .nobody → w.G.blk p = .nobody := by
    intro w1 hr hb
    rcases hp with h | ⟨_, h⟩
    · rw [(hr.keep hi h.blk).blk, h.blk] at hb; exact absurd hb (by simp)
    · exact h
  cases hs : ro.inSlab p with
  | true =>
    rw [if_pos rfl]
    refine WP.andThen (WP.unseal hi fun w1 r1 => ?_)
    refine WP.andThen ((smallCheck_wp hro (r1.inv hi) (fun _ => rfl) hs ?_ ?_).mono fun _ tl2 w2 => ?_)
    · exact fun msg ch hb => hA.nobody (nob r1 hb) msg ch w1
    · intro msg ch hb hc
      have hm0 : Mine t p w := by
        rcases hp with h | ⟨h1, h2⟩
        · exact h
        · rw [r1.seq h1] at hb; exact absurd h2 hb
      exact hA.canary hm0 (hc.back hro hi r1 hm0.blk) msg ch w1
    · rintro ⟨rfl, r2, a, c, i, k, h1, h2⟩
      have hb1 : w1.G.blk p ≠ .nobody := ((r1.inv hi).blk p).mpr (Or.inl ⟨a, c, i, k, h1⟩)
      have hm0 : Mine t p w := by
        rcases hp with h | ⟨h3, h4⟩
        · exact h
        · rw [r1.seq h3] at hb1; exact absurd h4 hb1
      have hsm := (small_back hro hi r1 hm0.blk h1).1
      refine WP.andThen (WP.sealM (r2.inv (r1.inv hi)) fun w3 r3 => WP.pure ⟨rfl, ?_, ?_, Or.inr ⟨h0, rfl, hm0, Or.inl ⟨a, c, i, k, hsm, ?_⟩, ?_⟩⟩)
      · exact ((Idle.ofRely hi r1).rely r2).rely r3
      · exact fun hm => (r3.seq hm).trans ((r2.seq hm).trans (r1.seq hm))
      · have hz := (classGeo ro.g h1.2.1).size_ge
        unfold Ro.slabUsableSize Cfg.usable Cfg.slotSize
        rw [h1.cls hro (r1.inv hi)]
        simp only
        by_cases h : ro.g.classSize c = 0
        · rw [if_pos h, if_pos h]
        · rw [if_neg h, if_neg h, if_neg h]
      · intro a' c' i' k' hs' hg
        obtain ⟨rfl, rfl, rfl, rfl⟩ := hsm.uniq hro hi hs'
        exact (h2 (hg.env (r1.env hi))).back hro hi r1 hm0.blk h1
  | false =>
    rw [if_neg (by simp)]
    refine WP.andThen (WP.unseal hi fun w1 r1 => ?_)
    refine WP.andThen ((findRegion_wp hro (r1.inv hi) (fun _ => rfl) (hp.idle hro hi r1) hs ?_).mono fun r tl2 w2 => ?_)
    · exact fun ch hb => hA.nobody (nob r1 hb) _ ch w1
    · rintro ⟨rfl, r2, hm, hh⟩
      have hm0 := hp.mine_of_rely r1 hm
      have hh0 : w.σ.rt.Has ⟨p, r.1, r.2⟩ := by
        obtain ⟨s', g', h3⟩ := Mine.has hro hi (by rw [hm0.blk]; simp) hs
        have := (r1.inv hi).has_unique hh ((r1.keep hi hm0.blk).large s' g' h3).1 rfl
        rw [this]; exact h3
      refine WP.andThen (WP.sealM (r2.inv (r1.inv hi)) fun w3 r3 => WP.pure ⟨rfl, ?_, ?_, Or.inr ⟨h0, rfl, hm0, Or.inr ⟨r.2, hh0⟩, ?_⟩⟩)
      · exact ((Idle.ofRely hi r1).rely r2).rely r3
      · exact fun hm => (r3.seq hm).trans ((r2.seq hm).trans (r1.seq hm))
      · exact fun a c i k h => (not_small_has hro hi h hh0).elim

/-! ### Object size -/

theorem objectOffset_spec {g : Cfg} {base cls p : Nat} {c : SC} {loc : Nat → Loc} (hv : g.Valid) (hb : BaseOk g base)
    (hcls : cls < nClasses g) (h0 : cls ≠ 0) (h : Bits g cls c loc) (hp : p < W64) (hq : g.slabQuarantine = false → ∀ i k, c.quar i k = false) :
    match objectOffset g base cls p c with
    | .ok n => ∃ i k, c.live i k = true ∧ inRange (slotAddr g base cls i k) (g.slotSize cls) p ∧ n = p - slotAddr g base cls i k
    | .fatal _ => ∀ i k, c.live i k = true → ¬ inRange (slotAddr g base cls i k) (g.slotSize cls) p
    | _ => False := by
  have G := classGeo g hcls
  have hz : g.classSize cls ≠ 0 := fun e => h0 (G.zero_iff.mpr e)
  have hss : g.slotSize cls = g.classSize cls := by unfold Cfg.slotSize; rw [if_neg hz]
  have hsl : getSlabSize (g.slots cls) (g.classSize cls) = g.slabSize cls := by unfold Cfg.slabSize; rw [hss]
  have h16 := G.size_ge
  unfold objectOffset
  rcases getMetadata_any hv hb hcls hp h.mle with ⟨i, hi, hlt, hr⟩ | ⟨⟨msg, hi⟩, hno⟩
  · rw [hi, Res.bind_ok]
    simp only
    rw [hsl]
    obtain ⟨he, h256⟩ := slotIndex_in hb hcls (show i < g.metaMax cls by have := h.mle; omega) hr
    have hsi : libdivideU32Do (sub64 p (slabAddr base (g.slabSize cls) i) % 2 ^ 32) (libdivideU32Gen (g.slotSize cls)) = slotIndex g base cls p i := rfl
    rw [hsi, if_neg (by omega)]
    have hreg := slab_in_region hcls (g := g) (i := i) (by have := h.mle; omega)
    have hbh := hb.hi
    have key : inRange (slotAddr g base cls i (slotIndex g base cls p i)) (g.slotSize cls) p := by
      have h1 := Nat.div_add_mod (p - slabAddr base (g.slabSize cls) i) (g.slotSize cls)
      have h2 := Nat.mod_lt (p - slabAddr base (g.slabSize cls) i) (show g.slotSize cls > 0 by omega)
      rw [← he, Nat.mul_comm] at h1
      unfold slotAddr slotPointer
      unfold inRange at *
      omega
    have uniq : ∀ i' k', c.live i' k' = true → inRange (slotAddr g base cls i' k') (g.slotSize cls) p → c.live i (slotIndex g base cls p i) = true := by
      intro i' k' hl hin
      have hu : c.used i' k' = true := by unfold SC.live at hl; simp only [Bool.and_eq_true] at hl; exact hl.1
      have hk := h.used_lt hu
      have : i' = i := slab_disjoint hcls (slot_range_slab hcls hk hin) hr
      subst this
      have : slotIndex g base cls p i' = k' := by
        rw [he]
        have : p - slabAddr base (g.slabSize cls) i' = k' * g.slotSize cls + (p - slotAddr g base cls i' k') := by
          unfold slotAddr slotPointer at *; unfold inRange at *; omega
        rw [this, Nat.add_comm, Nat.add_mul_div_right _ _ (by omega), Nat.div_eq_of_lt (by unfold inRange at hin; omega), Nat.zero_add]
      rw [this]; exact hl
    by_cases c1 : (!(c.slabs i).bitmap.get (slotIndex g base cls p i)) = true
    · rw [if_pos c1]
      intro i' k' hl hin
      have := uniq i' k' hl hin
      rw [Bitmap.get_eq] at c1
      unfold SC.live SC.used at this
      simp only [Bool.not_eq_true', Bool.and_eq_true] at c1 this
      rw [c1] at this; exact absurd this.1 (by simp)
    rw [if_neg c1]
    by_cases c2 : (g.slabQuarantine && (c.slabs i).qbitmap.get (slotIndex g base cls p i)) = true
    · rw [if_pos c2]
      intro i' k' hl hin
      have := uniq i' k' hl hin
      rw [Bitmap.get_eq] at c2
      unfold SC.live SC.quar at this
      simp only [Bool.and_eq_true, Bool.not_eq_true'] at c2 this
      rw [c2.2] at this; exact absurd this.2 (by simp)
    rw [if_neg c2]
    refine ⟨i, slotIndex g base cls p i, ?_, key, ?_⟩
    · rw [Bitmap.get_eq] at c1 c2
      unfold SC.live SC.used
      simp only [Bool.not_eq_true', Bool.not_eq_false, Bool.and_eq_true, not_and, Bool.not_eq_true] at c1 c2 ⊢
      refine ⟨c1, ?_⟩
      cases hqq : g.slabQuarantine with
      | true => exact c2 hqq
      | false => exact hq hqq _ _
    · unfold inRange at key

      rw [← hss]
      exact sub64_of_le hp key.1
  · rw [hi, Res.bind_fatal]
    intro i' k' hl hin
    have hu : c.used i' k' = true := by unfold SC.live at hl; simp only [Bool.and_eq_true] at hl; exact hl.1
    exact hno i' (h.used_meta hu).1 (slot_range_slab hcls (h.used_lt hu) hin)

/-- h_malloc.c:1801-1826. -/
theorem smallOffset_wp {p : Nat} {tl : Tl} {w : World} (hro : RoOk ro) (hi : GInv ro w) (hu : Unsealed ro tl) (hs : ro.inSlab p = true)
    (hN : ∀ msg ch, (∀ q a c i k, IsSmall ro w.σ q a c i k → ¬ inRange q (ro.g.slotSize c) p) → F (.fatal msg) ch w)
    (hZ : (ro.sizeClassOf p).2 = 0 → ∀ b ch, F b ch w) :
    WP m ro t F (smallOffset ro p) (fun n tl' w' => tl' = tl ∧ Rely m ro t w w' ∧ ((ro.sizeClassOf p).2 ≠ 0 →
      ∃ q a c i k, IsSmall ro w.σ q a c i k ∧ c = (ro.sizeClassOf p).2 ∧ inRange q (ro.g.slotSize c) p ∧ n = p - q)) tl w := by
  obtain ⟨ha, hc, hcell⟩ := hro.sizeClassOf_lt hs
  refine WP.read (fun _ => smallOffset_local) hi hu fun ch hf => ?_
  simp only
  rw [if_neg (by omega)]
  have hcl : ∀ q a c i k, IsSmall ro w.σ q a c i k → inRange q (ro.g.slotSize c) p → a = (ro.sizeClassOf p).1 ∧ c = (ro.sizeClassOf p).2 := by
    intro q a c i k h1 h2
    obtain ⟨l1, l2, _⟩ := h1.lt hi
    obtain ⟨ha, hc, hp, _⟩ := h1
    have : ro.sizeClassOf p = (a, c) := by
      refine hro.sizeClassOf ha hc (hro.region_cell ha hc ?_)
      rw [hp] at h2
      exact slot_in_region hro ha hc l1 l2 h2
    rw [this]; exact ⟨rfl, rfl⟩
  by_cases h0 : (ro.sizeClassOf p).2 = 0
  · have hZ := hZ h0
    cases objectOffset ro.g (ro.regionStart (ro.sizeClassOf p).1 (ro.sizeClassOf p).2) (ro.sizeClassOf p).2 p (w.σ.sc (ro.sizeClassOf p).1 (ro.sizeClassOf p).2) with
    | ok n => exact ⟨rfl, rfl, fun w2 hr => ⟨trivial, hr, fun h => absurd h0 h⟩⟩
    | fatal _ => exact hZ _ _
    | segv => exact hZ _ _
    | ub _ => exact hZ _ _
    | hang => exact hZ _ _
  · obtain ⟨P, E, Fl, hinv⟩ := hi.cls _ _ ha hc
    have sp := objectOffset_spec (p := p) hro.valid (hro.base ha hc) hc h0 hinv.bits (inSlab_lt hro hs) (by
      intro hq i k
      by_contra hqk
      have hqk : (w.σ.sc (ro.sizeClassOf p).1 (ro.sizeClassOf p).2).quar i k = true := by simpa using hqk
      have hne := (hinv.qarr.bit i k).mp hqk
      have hnt := hinv.notransit i k
      unfold Cfg.slabQuarantine at hq
      simp only [Bool.or_eq_false_iff, decide_eq_false_iff_not, Nat.not_lt, Nat.le_zero] at hq
      cases hql : w.G.ql (ro.sizeClassOf p).1 (ro.sizeClassOf p).2 i k with
      | none => exact hne hql
      | transit => exact hnt hql
      | rand j => have := (hinv.qarr.r1 i k j hql).2; rw [hq.1] at this; simp [shl64] at this
      | queue j => have := (hinv.qarr.q1 i k j hql).2; rw [hq.2] at this; simp [shl64] at this)
    revert sp
    cases objectOffset ro.g (ro.regionStart (ro.sizeClassOf p).1 (ro.sizeClassOf p).2) (ro.sizeClassOf p).2 p (w.σ.sc (ro.sizeClassOf p).1 (ro.sizeClassOf p).2) with
    | ok n =>
      rintro ⟨i, k, h1, h2, h3⟩
      exact ⟨rfl, rfl, fun w2 hr => ⟨trivial, hr, fun _ => ⟨_, _, _, i, k, ⟨ha, hc, rfl, h1⟩, rfl, h2, h3⟩⟩⟩
    | fatal msg =>
      intro h
      refine hN msg ch fun q a c i k h1 h2 => ?_
      obtain ⟨rfl, rfl⟩ := hcl q a c i k h1 h2
      obtain ⟨_, _, hp, hl⟩ := h1
      exact h i k hl (by rw [← hp]; exact h2)
    | segv => exact False.elim
    | ub _ => exact False.elim
    | hang => exact False.elim

/-- h_malloc.c:1839-1843. -/
theorem largeObjectSize_wp {p : Nat} {tl : Tl} {w : World} (hi : GInv ro w) (hu : Unsealed ro tl) :
    WP m ro t F (largeObjectSize ro p) (fun n tl' w' => tl' = tl ∧ Rely m ro t w w' ∧
      ((∃ g, w.σ.rt.Has ⟨p, n, g⟩) ∨ (n = W64 - 1 ∧ ∀ s g, ¬ w.σ.rt.Has ⟨p, s, g⟩))) tl w := by
  refine WP.read (fun _ => largeObjectSize_local) hi hu fun ch _ => ?_
  rcases lookupRegion_spec hi p with ⟨i, r, h1, h2, h3, h4, h5⟩ | ⟨h1, h2⟩
  · rw [h1]; subst h4
    exact ⟨rfl, rfl, fun w2 hr => ⟨rfl, hr, Or.inl ⟨r.guard, h5⟩⟩⟩
  · rw [h1]
    exact ⟨rfl, rfl, fun w2 hr => ⟨rfl, hr, Or.inr ⟨rfl, fun s g h => h2 _ h rfl⟩⟩⟩

/-- What `malloc_object_size` returns for a pointer that is not in the zero byte class. -/
def ObjSize (ro : Ro) (w : World) (p n : Nat) : Prop :=
  (p = 0 ∧ n = 0) ∨
  (p ≠ 0 ∧ ∃ q a c i k, IsSmall ro w.σ q a c i k ∧ ro.g.classSize c ≠ 0 ∧ inRange q (ro.g.slotSize c) p ∧ n = sub64 (ro.g.usable c) (p - q)) ∨
  (p ≠ 0 ∧ ro.inSlab p = false ∧ ((∃ g, w.σ.rt.Has ⟨p, n, g⟩) ∨ (n = W64 - 1 ∧ ∀ s g, ¬ w.σ.rt.Has ⟨p, s, g⟩)))

/-- h_malloc.c:1792-1847. Sequential runs only: `p` need not belong to the caller. -/
theorem hObjectSize_wp {p : Nat} {tl : Tl} {w : World} (hro : RoOk ro) (hi : GInv ro w)
    (hN : ∀ msg ch, ro.inSlab p = true → (∀ q a c i k, IsSmall ro w.σ q a c i k → ¬ inRange q (ro.g.slotSize c) p) → F (.fatal msg) ch w)
    (hZ : ro.inSlab p = true → (ro.sizeClassOf p).2 = 0 → ∀ b ch, F b ch w) :
    WP .seq ro t F (hObjectSize ro p) (fun n tl' w' => tl'.errno = tl.errno ∧ w' = w ∧ (p = 0 ∨ tl'.unsealed = false) ∧
      ((ro.inSlab p = true ∧ (ro.sizeClassOf p).2 = 0 ∧ n = 0) ∨ ObjSize ro w p n)) tl w := by
  unfold hObjectSize
  by_cases h0 : p = 0
  · rw [if_pos h0]; exact WP.pure ⟨rfl, rfl, Or.inl h0, Or.inr (Or.inl ⟨h0, rfl⟩)⟩
  rw [if_neg h0]
  cases hs : ro.inSlab p with
  | true =>
    rw [if_pos rfl]
    refine WP.andThen (WP.unseal hi fun w1 (r1 : w1 = w) => ?_)
    subst r1
    refine WP.andThen ((smallOffset_wp (m := .seq) hro hi (fun _ => rfl) hs (fun msg ch => hN msg ch hs) (hZ hs)).mono fun n tl2 w2 => ?_)
    rintro ⟨rfl, (r2 : w2 = w1), h⟩
    subst r2
    refine WP.andThen (WP.sealM hi fun w3 (r3 : w3 = w2) => WP.pure ⟨rfl, r3, Or.inr rfl, ?_⟩)
    have hc := (hro.sizeClassOf_lt hs).2.1
    have G := classGeo ro.g hc
    unfold Ro.slabUsableSize
    by_cases hz : (ro.sizeClassOf p).2 = 0
    · left; exact ⟨rfl, hz, if_pos (G.zero_iff.mp hz)⟩
    · right; right; left
      have hne : ro.g.classSize (ro.sizeClassOf p).2 ≠ 0 := fun e => hz (G.zero_iff.mpr e)
      obtain ⟨q, a, c, i, k, h1, rfl, h2, h3⟩ := h hz
      have hss : ro.g.slotSize (ro.sizeClassOf p).2 = ro.g.classSize (ro.sizeClassOf p).2 := by unfold Cfg.slotSize; rw [if_neg hne]
      have h16 := G.size_ge; have := G.size_le; have := canarySize_le ro.g
      refine ⟨h0, q, a, _, i, k, h1, hne, h2, ?_⟩
      rw [if_neg hne, h3]
      unfold Cfg.usable
      rw [hss, sub64_of_le (a := ro.g.classSize (ro.sizeClassOf p).2) (by omega) (by omega)]
  | false =>
    rw [if_neg (by simp)]
    refine WP.andThen (WP.unseal hi fun w1 (r1 : w1 = w) => ?_)
    subst r1
    refine WP.andThen ((largeObjectSize_wp (m := .seq) hi (fun _ => rfl)).mono fun n tl2 w2 => ?_)
    rintro ⟨rfl, (r2 : w2 = w1), h⟩
    subst r2
    exact WP.andThen (WP.sealM hi fun w3 (r3 : w3 = w2) => WP.pure ⟨rfl, r3, Or.inr rfl, Or.inr (Or.inr (Or.inr ⟨h0, hs, h⟩))⟩)

/-! ### Trimming -/

/-- Pages that were accessible have lost their access, as the result `b` reports. -/
structure LostPages (w : World) (b : Bool) (w' : World) : Prop where
  prot : ∀ pg, w'.σ.vm.prot pg = w.σ.vm.prot pg ∨ w'.σ.vm.prot pg = .none
  res : b = true ↔ ∃ pg, w.σ.vm.prot pg = .rw ∧ w'.σ.vm.prot pg ≠ .rw

theorem LostPages.refl (w : World) : LostPages w false w :=
  ⟨fun _ => Or.inl rfl, ⟨fun h => absurd h (by simp), fun ⟨_, h1, h2⟩ => absurd h1 h2⟩⟩

theorem LostPages.trans {w w1 w2 : World} {b b' : Bool} (h : LostPages w b w1) (h' : LostPages w1 b' w2) : LostPages w (b || b') w2 := by
  refine ⟨fun pg => ?_, ?_⟩
  · rcases h'.prot pg with e | e
    · rw [e]; exact h.prot pg
    · exact Or.inr e
  · rw [Bool.or_eq_true, h.res, h'.res]
    constructor
    · rintro (⟨pg, h1, h2⟩ | ⟨pg, h1, h2⟩)
      · refine ⟨pg, h1, ?_⟩
        rcases h'.prot pg with e | e
        · rw [e]; exact h2
        · rw [e]; simp
      · refine ⟨pg, ?_, h2⟩
        rcases h.prot pg with e | e
        · rw [← e]; exact h1
        · rw [e] at h1; exact absurd h1 (by simp)
    · rintro ⟨pg, h1, h2⟩
      by_cases hr : w1.σ.vm.prot pg = .rw
      · exact Or.inr ⟨pg, hr, h2⟩
      · exact Or.inl ⟨pg, h1, hr⟩

theorem TrimSeq.released {a c : Nat} {w w' : World} {b : Bool} (h : TrimSeq ro a c w b w') : LostPages w b w' := ⟨h.prot, h.res⟩

/-- The inner loop. -/
theorem trimClasses_wp {a : Nat} (hro : RoOk ro) (hF : FSys F) (ha : a < ro.g.nArena) :
    ∀ (n c : Nat) (b0 : Bool) (tl : Tl) (w : World), 0 < c → c + n ≤ nClasses ro.g → GInv ro w → Unsealed ro tl →
    WP m ro t F (trimClasses ro a n c b0) (fun b tl' w' => tl'.unsealed = tl.unsealed ∧ Idle m ro t w w' ∧ (m = .seq →
      (∃ b1, b = (b0 || b1) ∧ LostPages w b1 w') ∧ (∀ a' c', ¬ (a' = a ∧ c ≤ c' ∧ c' < c + n) → w'.σ.sc a' c' = w.σ.sc a' c') ∧
      (w.G.calm = true → ∀ c', c ≤ c' → c' < c + n → (w'.σ.sc a c').emptyTotal = 0))) tl w := by
  intro n
  induction n with
  | zero =>
    intro c b0 tl w _ _ hi _
    exact WP.pure ⟨rfl, At.refl hi, fun _ => ⟨⟨false, by simp, LostPages.refl w⟩, fun _ _ _ => rfl, fun _ c' h1 h2 => by omega⟩⟩
  | succ n ih =>
    intro c b0 tl w hc0 hcn hi hu
    unfold trimClasses
    refine WP.andThen ((smallTrim_wp hro hF hi hu ha (by omega) (by omega)).mono fun b1 tl1 w1 => ?_)
    rintro ⟨h1, h2, h3⟩
    refine (ih (c + 1) (b0 || b1) tl1 w1 (by omega) (by omega) h2.inv (fun e => h1.trans (hu e))).mono fun b tl2 w2 => ?_
    rintro ⟨k1, k2, k3⟩
    refine ⟨k1.trans h1, h2.trans0 k2, fun hm => ?_⟩
    have s1 := h3 hm
    obtain ⟨⟨b2, e2, r2⟩, q1, q2⟩ := k3 hm
    refine ⟨⟨b1 || b2, by rw [e2, Bool.or_assoc], s1.released.trans r2⟩, fun a' c' hn => ?_, fun hcalm c' l1 l2 => ?_⟩
    · rw [q1 a' c' (fun h => hn ⟨h.1, by omega, by omega⟩), s1.rest a' c' (fun h => hn ⟨h.1, by omega, by omega⟩)]
    · by_cases e : c' = c
      · subst e
        rw [q1 a c' (fun h => by omega)]; exact s1.empty hcalm
      · exact q2 (by rw [h2.calm]; exact hcalm) c' (by omega) (by omega)

/-- The outer loop. -/
theorem trimArenas_wp (hro : RoOk ro) (hF : FSys F) :
    ∀ (n a : Nat) (b0 : Bool) (tl : Tl) (w : World), a + n ≤ ro.g.nArena → GInv ro w → Unsealed ro tl →
    WP m ro t F (trimArenas ro n a b0) (fun b tl' w' => tl'.unsealed = tl.unsealed ∧ Idle m ro t w w' ∧ (m = .seq →
      (∃ b1, b = (b0 || b1) ∧ LostPages w b1 w') ∧ (∀ a' c', ¬ (a ≤ a' ∧ a' < a + n) → w'.σ.sc a' c' = w.σ.sc a' c') ∧
      (w.G.calm = true → ∀ a', a ≤ a' → a' < a + n → ∀ c', 0 < c' → c' < nClasses ro.g → (w'.σ.sc a' c').emptyTotal = 0))) tl w := by
  intro n
  induction n with
  | zero =>
    intro a b0 tl w _ hi _
    exact WP.pure ⟨rfl, At.refl hi, fun _ => ⟨⟨false, by simp, LostPages.refl w⟩, fun _ _ _ => rfl, fun _ c' h1 h2 => by omega⟩⟩
  | succ n ih =>
    intro a b0 tl w hcn hi hu
    unfold trimArenas
    have hp := nClasses_pos ro.g
    refine WP.andThen ((trimClasses_wp hro hF (a := a) (by omega) (nClasses ro.g - 1) 1 b0 tl w (by omega) (by omega) hi hu).mono fun b1 tl1 w1 => ?_)
    rintro ⟨h1, h2, h3⟩
    refine (ih (a + 1) b1 tl1 w1 (by omega) h2.inv (fun e => h1.trans (hu e))).mono fun b tl2 w2 => ?_
    rintro ⟨k1, k2, k3⟩
    refine ⟨k1.trans h1, h2.trans0 k2, fun hm => ?_⟩
    obtain ⟨⟨b3, e3, r3⟩, p1, p2⟩ := h3 hm
    obtain ⟨⟨b2, e2, r2⟩, q1, q2⟩ := k3 hm
    refine ⟨⟨b3 || b2, by rw [e2, e3, Bool.or_assoc], r3.trans r2⟩, fun a' c' hn => ?_, fun hcalm a' l1 l2 c' l3 l4 => ?_⟩
    · rw [q1 a' c' (fun h => hn ⟨by omega, by omega⟩), p1 a' c' (fun h => hn ⟨by omega, by omega⟩)]
    · by_cases e : a' = a
      · subst e
        rw [q1 a' c' (fun h => by omega)]; exact p2 hcalm c' (by omega) (by omega)
      · exact q2 (by rw [h2.calm]; exact hcalm) a' (by omega) (by omega) c' l3 l4

/-- h_malloc.c:1877-1945. -/
theorem hTrim_wp {tl : Tl} {w : World} (hro : RoOk ro) (hF : FSys F) (hi : GInv ro w) :
    WP m ro t F (hTrim ro) (fun b tl' w' => tl'.unsealed = false ∧ Idle m ro t w w' ∧ (m = .seq → LostPages w b w' ∧
      (w.G.calm = true → ∀ a, a < ro.g.nArena → ∀ c, 0 < c → c < nClasses ro.g → (w'.σ.sc a c).emptyTotal = 0))) tl w := by
  unfold hTrim
  refine WP.andThen (WP.unseal hi fun w1 r1 => ?_)
  refine WP.andThen ((trimArenas_wp hro hF ro.g.nArena 0 false _ w1 (by omega) (r1.inv hi) (fun _ => rfl)).mono fun b tl2 w2 => ?_)
  rintro ⟨_, h2, h3⟩
  refine WP.andThen (WP.sealM h2.inv fun w3 r3 => WP.pure ⟨rfl, (Idle.pre hi r1 h2).rely r3, fun hm => ?_⟩)
  obtain ⟨⟨b1, e1, h4⟩, _, h5⟩ := h3 hm
  have e := r3.seq hm; have e' := r1.seq hm
  subst e; subst e'
  simp only [Bool.false_or] at e1
  subst e1
  exact ⟨h4, fun hc a ha c h0 hc' => h5 hc a (by omega) (by omega) c h0 hc'⟩

/-! ### Statistics -/

/-- Sum over all classes of all arenas. -/
def sumAll (ro : Ro) (f : Nat → Nat → Nat) : Nat := ∑ a ∈ Finset.range ro.g.nArena, ∑ c ∈ Finset.range (nClasses ro.g), f a c

theorem sumClasses_wp {a : Nat} (ha : a < ro.g.nArena) : ∀ (n c : Nat) (p : Nat × Nat) (tl : Tl) (w : World), c + n ≤ nClasses ro.g → GInv ro w → Unsealed ro tl →
    WP m ro t F (sumClasses ro a n c p) (fun r tl' w' => tl' = tl ∧ Idle m ro t w w' ∧ (m = .seq → w' = w ∧
      (p.1 < W64 → r.1 = (p.1 + ∑ i ∈ Finset.range n, (w.σ.sc a (c + i)).slabAllocated) % W64) ∧
      (p.2 < W64 → r.2 = (p.2 + ∑ i ∈ Finset.range n, (w.σ.sc a (c + i)).allocated) % W64))) tl w := by
  intro n
  induction n with
  | zero => intro c p tl w hn hi _; exact WP.pure ⟨rfl, At.refl hi, fun _ => ⟨rfl, fun h => by simp [Nat.mod_eq_of_lt h], fun h => by simp [Nat.mod_eq_of_lt h]⟩⟩
  | succ n ih =>
    intro c p tl w hn hi hu
    unfold sumClasses
    refine WP.andThen (WP.read (fun _ => readClassStats_local ha (by omega)) hi hu fun _ _ => ⟨rfl, rfl, fun w1 r1 => ?_⟩)
    refine (ih (c + 1) _ tl w1 (by omega) (r1.inv hi) hu).mono fun r tl2 w2 => ?_
    rintro ⟨h1, h2, h3⟩
    refine ⟨h1, Idle.pre hi r1 h2, fun hm => ?_⟩
    obtain ⟨q1, q2, q3⟩ := h3 hm
    have e := r1.seq hm
    subst e
    refine ⟨q1, fun _ => ?_, fun _ => ?_⟩
    · rw [q2 (Nat.mod_lt _ (by decide)), Finset.sum_range_succ']
      unfold add64
      have : (∑ i ∈ Finset.range n, (w1.σ.sc a (c + (i + 1))).slabAllocated) = ∑ i ∈ Finset.range n, (w1.σ.sc a (c + 1 + i)).slabAllocated :=
        Finset.sum_congr rfl fun i _ => by rw [show c + (i + 1) = c + 1 + i by omega]
      rw [this]; simp only [Nat.add_zero]; omega
    · rw [q3 (Nat.mod_lt _ (by decide)), Finset.sum_range_succ']
      unfold add64
      have : (∑ i ∈ Finset.range n, (w1.σ.sc a (c + (i + 1))).allocated) = ∑ i ∈ Finset.range n, (w1.σ.sc a (c + 1 + i)).allocated :=
        Finset.sum_congr rfl fun i _ => by rw [show c + (i + 1) = c + 1 + i by omega]
      rw [this]; simp only [Nat.add_zero]; omega

theorem sumArenas_wp : ∀ (n a : Nat) (p : Nat × Nat) (tl : Tl) (w : World), a + n ≤ ro.g.nArena → GInv ro w → Unsealed ro tl →
    WP m ro t F (sumArenas ro n a p) (fun r tl' w' => tl' = tl ∧ Idle m ro t w w' ∧ (m = .seq → w' = w ∧
      (p.1 < W64 → r.1 = (p.1 + ∑ j ∈ Finset.range n, ∑ i ∈ Finset.range (nClasses ro.g), (w.σ.sc (a + j) i).slabAllocated) % W64) ∧
      (p.2 < W64 → r.2 = (p.2 + ∑ j ∈ Finset.range n, ∑ i ∈ Finset.range (nClasses ro.g), (w.σ.sc (a + j) i).allocated) % W64))) tl w := by
  intro n
  induction n with
  | zero => intro a p tl w hn hi _; exact WP.pure ⟨rfl, At.refl hi, fun _ => ⟨rfl, fun h => by simp [Nat.mod_eq_of_lt h], fun h => by simp [Nat.mod_eq_of_lt h]⟩⟩
  | succ n ih =>
    intro a p tl w hn hi hu
    unfold sumArenas
    refine WP.andThen ((sumClasses_wp (by omega) (nClasses ro.g) 0 p tl w (by omega) hi hu).mono fun r1 tl1 w1 => ?_)
    rintro ⟨rfl, h2, h3⟩
    refine (ih (a + 1) r1 tl1 w1 (by omega) h2.inv hu).mono fun r tl2 w2 => ?_
    rintro ⟨k1, k2, k3⟩
    refine ⟨k1, h2.trans0 k2, fun hm => ?_⟩
    obtain ⟨q1, q2, q3⟩ := k3 hm
    obtain ⟨p1, p2, p3⟩ := h3 hm
    subst p1
    refine ⟨q1, fun hl => ?_, fun hl => ?_⟩
    · have e1 := p2 hl
      rw [q2 (by rw [e1]; exact Nat.mod_lt _ (by decide)), e1, Finset.sum_range_succ']
      have : (∑ j ∈ Finset.range n, ∑ i ∈ Finset.range (nClasses ro.g), (w1.σ.sc (a + (j + 1)) i).slabAllocated) =
          ∑ j ∈ Finset.range n, ∑ i ∈ Finset.range (nClasses ro.g), (w1.σ.sc (a + 1 + j) i).slabAllocated :=
        Finset.sum_congr rfl fun j _ => by rw [show a + (j + 1) = a + 1 + j by omega]
      rw [this]; simp only [Nat.add_zero, Nat.zero_add]; omega
    · have e1 := p3 hl
      rw [q3 (by rw [e1]; exact Nat.mod_lt _ (by decide)), e1, Finset.sum_range_succ']
      have : (∑ j ∈ Finset.range n, ∑ i ∈ Finset.range (nClasses ro.g), (w1.σ.sc (a + (j + 1)) i).allocated) =
          ∑ j ∈ Finset.range n, ∑ i ∈ Finset.range (nClasses ro.g), (w1.σ.sc (a + 1 + j) i).allocated :=
        Finset.sum_congr rfl fun j _ => by rw [show a + (j + 1) = a + 1 + j by omega]
      rw [this]; simp only [Nat.add_zero, Nat.zero_add]; omega

/-- h_malloc.c:1954-1996. -/
theorem hMallinfo_wp {tl : Tl} {w : World} (hi : GInv ro w) (hst : m = .seq → StatOk ro w) :
    WP m ro t F (hMallinfo ro) (fun r tl' w' => Idle m ro t w w' ∧ tl'.errno = tl.errno ∧ (ro.g.stats = true → tl'.unsealed = false) ∧
      (ro.g.stats = false → tl' = tl) ∧ (m = .seq → w' = w ∧ (ro.g.stats = true →
        r.hblkhd = (w.σ.largeAllocated + sumAll ro fun a c => (w.σ.sc a c).slabAllocated) % W64 ∧
        r.uordblks = (w.σ.largeAllocated + sumAll ro fun a c => (w.σ.sc a c).allocated) % W64 ∧
        r.fordblks = sub64 r.hblkhd r.uordblks ∧ r.usmblks = r.hblkhd))) tl w := by
  unfold hMallinfo
  cases hs : ro.g.stats with
  | false => rw [if_neg (by simp)]; exact WP.pure ⟨At.refl hi, rfl, fun h => absurd h (by simp), fun _ => rfl, fun _ => ⟨rfl, fun h => absurd h (by simp)⟩⟩
  | true =>
    rw [if_pos rfl]
    refine WP.andThen (WP.unseal hi fun w1 r1 => ?_)
    refine WP.andThen (WP.read (fun _ => readLargeStats_local) (r1.inv hi) (fun _ => rfl) fun _ _ => ⟨rfl, rfl, fun w2 r2 => ?_⟩)
    refine WP.andThen ((sumArenas_wp ro.g.nArena 0 (w1.σ.largeAllocated, w1.σ.largeAllocated) _ w2 (by omega) (r2.inv (r1.inv hi)) (fun _ => rfl)).mono fun r tl3 w3 => ?_)
    rintro ⟨rfl, h2, h3⟩
    refine WP.andThen (WP.sealM h2.inv fun w4 r4 => WP.pure ⟨?_, rfl, fun _ => rfl, fun h => absurd h (by simp), fun hm => ?_⟩)
    · exact ((((Idle.ofRely hi r1).rely r2).trans0 h2).rely r4)
    · have e1 := r1.seq hm; have e2 := r2.seq hm; have e4 := r4.seq hm
      obtain ⟨e3, q2, q3⟩ := h3 hm
      subst e4; subst e3; subst e2; subst e1
      have hl := ((hst hm).large hs).1
      have q2 := q2 hl
      have q3 := q3 hl
      simp only [Nat.zero_add] at q2 q3
      exact ⟨rfl, fun _ => ⟨q2, q3, rfl, rfl⟩⟩

end HM
