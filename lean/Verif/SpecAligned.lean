import Verif.SpecApi
import Verif.Props.SizeClass
/-
Aligned allocations (h_malloc.c:1401-1471, 1649-1671).
-/
namespace HM

variable {ro : Ro} {m : Mode} {t : Nat} {F : Bad → Choice → World → Prop}

theorem pow_of_mask {al : Nat} (h : al < W64) (h0 : al ≠ 0) (hm : (sub64 al 1 &&& al) = 0) : ∃ e, e < 64 ∧ al = 2 ^ e := by
  rw [sub64_of_le h (by omega), Nat.and_comm] at hm
  obtain ⟨e, he⟩ := (Nat.and_sub_one_eq_zero_iff_isPowerOfTwo h0).mp hm
  refine ⟨e, ?_, he⟩
  rw [he] at h
  exact (Nat.pow_lt_pow_iff_right (by decide : 1 < 2)).mp (show 2 ^ e < 2 ^ 64 from h)

theorem mask_of_pow {e : Nat} (he : e < 64) : (sub64 (2 ^ e) 1 &&& 2 ^ e) = 0 := by
  have h : (2 : Nat) ^ e < W64 := (Nat.pow_lt_pow_right (by decide) he : 2 ^ e < 2 ^ 64)
  rw [sub64_of_le h (Nat.two_pow_pos e), Nat.and_comm]
  exact (Nat.and_sub_one_eq_zero_iff_isPowerOfTwo (Nat.ne_of_gt (Nat.two_pow_pos e))).mpr ⟨e, rfl⟩

theorem slot_dvd (hro : RoOk ro) {a c i k d : Nat} (ha : a < ro.g.nArena) (hc : c < nClasses ro.g) (hd : d ∣ PAGE) (hs : d ∣ ro.g.slotSize c) :
    d ∣ slotAddr ro.g (ro.regionStart a c) c i k := by
  have h1 := (hro.base ha hc).mod
  have h2 := (classGeo ro.g hc).slab_mod
  unfold slotAddr
  exact Nat.dvd_add (Nat.dvd_add (hd.trans (Nat.dvd_of_mod_eq_zero h1)) (Dvd.dvd.mul_left (hd.trans (Nat.dvd_of_mod_eq_zero h2)) _))
    (Dvd.dvd.mul_left hs _)

/-- Every block is aligned to 16 bytes. -/
theorem Got.align16 (hro : RoOk ro) {a s p : Nat} {w0 w : World} (g : Got m ro t a s w0 p w) : p % 16 = 0 := by
  rcases g with ⟨h, n⟩ | ⟨h, n⟩
  · obtain ⟨i, k, ⟨ha, hc, hp, _⟩, _⟩ := n.small
    rw [hp]
    exact Nat.mod_eq_zero_of_dvd (slot_dvd hro ha hc (by decide) (Nat.dvd_of_mod_eq_zero (classGeo ro.g hc).size_mod))
  · obtain ⟨g, h⟩ := n.has
    have := (n.at_.inv.reg _ h).pmod
    simp only at this; omega

theorem NewLarge.page {s un p : Nat} {ok : Nat → Prop} {w0 w : World} (n : NewLarge m ro t s ok un w0 p w) : p % PAGE = 0 := by
  obtain ⟨g, h⟩ := n.has
  exact (n.at_.inv.reg _ h).pmod

/-- The block `p` got by asking for `s` bytes (canary included) aligned to `al`. -/
def GotAl (m : Mode) (ro : Ro) (t a al s : Nat) (w0 : World) (p : Nat) (w : World) : Prop :=
  p % al = 0 ∧ ((al ≤ PAGE ∧ ∃ s', s ≤ s' ∧ s' < W64 ∧ (ro.g.maxSlab < s → s' = s) ∧ (s ≤ ro.g.maxSlab → s' ≤ ro.g.maxSlab) ∧ Got m ro t a s' w0 p w) ∨
    (PAGE < al ∧ NewLarge m ro t (getLargeSizeClass ro.g s) (fun _ => True) (if ro.g.stats then getLargeSizeClass ro.g s else 0) w0 p w))

theorem GotAl.pre {a al s p : Nat} {w0 w w' : World} (hi : GInv ro w0) (r : Rely m ro t w0 w) (g : GotAl m ro t a al s w p w') : GotAl m ro t a al s w0 p w' :=
  ⟨g.1, g.2.imp (fun ⟨h, s', h1, h2, h3, h4, h5⟩ => ⟨h, s', h1, h2, h3, h4, h5.pre hi r⟩) (fun ⟨h, n⟩ => ⟨h, n.pre (Idle.ofRely hi r)⟩)⟩

theorem GotAl.rely {a al s p : Nat} {w0 w w' : World} (g : GotAl m ro t a al s w0 p w) (r : Rely m ro t w w') : GotAl m ro t a al s w0 p w' :=
  ⟨g.1, g.2.imp (fun ⟨h, s', h1, h2, h3, h4, h5⟩ => ⟨h, s', h1, h2, h3, h4, h5.rely r⟩) (fun ⟨h, n⟩ => ⟨h, n.rely r⟩)⟩

theorem GotAl.inv {a al s p : Nat} {w0 w : World} (g : GotAl m ro t a al s w0 p w) : GInv ro w := by
  rcases g.2 with ⟨_, s', _, _, _, _, ⟨_, n⟩ | ⟨_, n⟩⟩ | ⟨_, n⟩ <;> exact n.at_.inv

/-- The outcome of an aligned allocation. -/
def AlPost (m : Mode) (ro : Ro) (t a al s mn : Nat) (w : World) (r : Except Errno Nat) (w' : World) : Prop :=
  match r with
  | .error e => Idle m ro t w w' ∧ ((e = EINVAL ∧ ¬ ((∃ k, al = 2 ^ k) ∧ mn ≤ al)) ∨ (e = ENOMEM ∧ (∃ k, al = 2 ^ k) ∧ mn ≤ al))
  | .ok p => (∃ k, al = 2 ^ k) ∧ mn ≤ al ∧ GotAl m ro t a al s w p w'

theorem dvd_of_pow_le {k : Nat} (h : (2 : Nat) ^ k ≤ PAGE) : (2 : Nat) ^ k ∣ PAGE :=
  Nat.pow_dvd_pow 2 ((Nat.pow_le_pow_iff_right (by decide)).mp (show 2 ^ k ≤ 2 ^ 12 from h))

/-- h_malloc.c:1401-1445. -/
theorem allocateAligned_wp {a al s mn : Nat} {tl : Tl} {w : World} (hro : RoOk ro) (hF : FSys F) (hD : FDirty ro F) (hi : GInv ro w)
    (hu : Unsealed ro tl) (ha : a < ro.g.nArena) (hs : s < W64) (hal : al < W64) (hmn : 0 < mn) :
    WP m ro t F (allocateAligned ro a al s mn) (fun r tl' w' => tl'.unsealed = tl.unsealed ∧ AlPost m ro t a al s mn w r w') tl w := by
  unfold allocateAligned
  by_cases h1 : (sub64 al 1 &&& al) ≠ 0 ∨ al < mn
  · rw [if_pos h1]
    refine WP.pure ⟨rfl, At.refl hi, Or.inl ⟨rfl, ?_⟩⟩
    rintro ⟨⟨k, hk⟩, h⟩
    rcases h1 with h1 | h1
    · have : k < 64 := by
        rw [hk] at hal
        exact (Nat.pow_lt_pow_iff_right (by decide : 1 < 2)).mp (show 2 ^ k < 2 ^ 64 from hal)
      rw [hk] at h1
      exact h1 (mask_of_pow this)
    · omega
  rw [if_neg h1]
  simp only [not_or, not_not, Nat.not_lt] at h1
  obtain ⟨k, hk, rfl⟩ := pow_of_mask hal (by omega) h1.1
  by_cases h2 : (2 : Nat) ^ k ≤ PAGE
  · rw [if_pos h2]
    have hdp := dvd_of_pow_le h2
    by_cases h3 : s ≤ ro.g.maxSlab ∧ 16 < (2 : Nat) ^ k
    · rw [if_pos h3]
      obtain ⟨i, hi1, hi2, hi3, hi4, hi5, hi6, _⟩ := c14_aligned_class ro.g s k h3.1
        ((Nat.pow_le_pow_iff_right (by decide)).mp (show 2 ^ k ≤ 2 ^ 12 from h2))
      rw [hi1]
      have hmax : i.size ≤ ro.g.maxSlab := by
        have : ∀ s ∈ sizeClasses ro.g, s ≤ ro.g.maxSlab := by unfold Cfg.maxSlab sizeClasses; cases ro.g.extended <;> decide
        exact this _ (List.mem_of_getElem? hi3)
      have hlt : i.size < W64 := by rcases maxSlab_cases ro.g with ⟨_, e⟩ | ⟨_, e⟩ <;> omega
      refine WP.andThen ((allocate_wp hro hF hD hi hu ha hlt).mono fun r tl2 w2 => ?_)
      rintro ⟨h4, h5⟩
      cases r with
      | none => exact WP.pure ⟨h4, h5.1, Or.inr ⟨rfl, ⟨k, rfl⟩, h1.2⟩⟩
      | some p =>
        refine WP.pure ⟨h4, ⟨k, rfl⟩, h1.2, ?_, Or.inl ⟨h2, i.size, hi4, hlt, fun h => absurd h (by omega), fun _ => hmax, h5⟩⟩
        rcases h5 with ⟨_, n⟩ | ⟨h6, _⟩
        · obtain ⟨i', k', ⟨ha, hc, hp, _⟩, _⟩ := n.small
          rw [hp]
          refine Nat.mod_eq_zero_of_dvd (slot_dvd hro ha hc hdp ?_)
          have : ro.g.classSize (ro.g.clsOf i.size) = i.size := by rw [classSize_clsOf hmax, hi6]
          unfold Cfg.slotSize
          rw [this, if_neg (by omega)]; exact hi5
        · omega
    · rw [if_neg h3]
      refine WP.andThen ((allocate_wp hro hF hD hi hu ha hs).mono fun r tl2 w2 => ?_)
      rintro ⟨h4, h5⟩
      cases r with
      | none => exact WP.pure ⟨h4, h5.1, Or.inr ⟨rfl, ⟨k, rfl⟩, h1.2⟩⟩
      | some p =>
        refine WP.pure ⟨h4, ⟨k, rfl⟩, h1.2, ?_, Or.inl ⟨h2, s, Nat.le_refl _, hs, fun _ => rfl, id, h5⟩⟩
        by_cases h16 : (2 : Nat) ^ k ≤ 16
        · have : (2 : Nat) ^ k ∣ 16 := Nat.pow_dvd_pow 2 ((Nat.pow_le_pow_iff_right (by decide)).mp (show 2 ^ k ≤ 2 ^ 4 from h16))
          exact Nat.mod_eq_zero_of_dvd (this.trans (Nat.dvd_of_mod_eq_zero (Got.align16 hro h5)))
        · rcases h5 with ⟨h6, _⟩ | ⟨_, n⟩
          · exact absurd ⟨h6, by omega⟩ h3
          · exact Nat.mod_eq_zero_of_dvd (hdp.trans (Nat.dvd_of_mod_eq_zero n.page))
  · rw [if_neg h2]
    have h12 : 12 ≤ k := by
      by_contra hh
      exact h2 (Nat.pow_le_pow_right (by decide) (by omega : k ≤ 12))
    refine WP.andThen ((allocateOverAligned_wp hro hF hi hu hs h12 hk).mono fun r tl2 w2 => ?_)
    rintro ⟨h4, h5⟩
    cases r with
    | none => exact WP.pure ⟨h4, h5, Or.inr ⟨rfl, ⟨k, rfl⟩, h1.2⟩⟩
    | some p =>
      obtain ⟨g1, g2, g3, g4, g5, g6, g7⟩ := h5
      exact WP.pure ⟨h4, ⟨k, rfl⟩, h1.2, g6, Or.inr ⟨by omega, g1, g2, g3, g4, g5, trivial, g7⟩⟩

/-- h_malloc.c:1454-1461. -/
theorem allocAligned_wp {a al n mn : Nat} {tl : Tl} {w : World} (hro : RoOk ro) (hF : FSys F) (hD : FDirty ro F) (hi : GInv ro w)
    (ha : a < ro.g.nArena) (hn : n < W64) (hal : al < W64) (hmn : 0 < mn) :
    WP m ro t F (allocAligned ro a al n mn) (fun r tl' w' => tl'.unsealed = false ∧
      AlPost m ro t a al (adjustSizeForCanary ro.g n) mn w r w') tl w := by
  unfold allocAligned
  refine WP.andThen (WP.unseal hi fun w1 r1 => ?_)
  refine WP.andThen ((allocateAligned_wp hro hF hD (r1.inv hi) (fun _ => rfl) ha (adjust_lt hn) hal hmn).mono fun r tl2 w2 => ?_)
  rintro ⟨_, h2⟩
  cases r with
  | error e => exact WP.andThen (WP.sealM h2.1.inv fun w3 r3 => WP.pure ⟨rfl, (Idle.pre hi r1 h2.1).rely r3, h2.2⟩)
  | ok p => exact WP.andThen (WP.sealM h2.2.2.inv fun w3 r3 => WP.pure ⟨rfl, h2.1, h2.2.1, (GotAl.pre hi r1 h2.2.2).rely r3⟩)

/-- The outcome of `aligned_alloc` and `memalign`. -/
def AlSimple (m : Mode) (ro : Ro) (t a al s : Nat) (w : World) (r : Option Nat) (tl' : Tl) (w' : World) : Prop :=
  tl'.unsealed = false ∧
  match r with
  | none => Idle m ro t w w' ∧ ((tl'.errno = EINVAL ∧ ¬ ∃ k, al = 2 ^ k) ∨ (tl'.errno = ENOMEM ∧ ∃ k, al = 2 ^ k))
  | some p => (∃ k, al = 2 ^ k) ∧ GotAl m ro t a al s w p w'

/-- h_malloc.c:1463-1471. -/
theorem allocAlignedSimple_wp {a al n : Nat} {tl : Tl} {w : World} (hro : RoOk ro) (hF : FSys F) (hD : FDirty ro F) (hi : GInv ro w)
    (ha : a < ro.g.nArena) (hn : n < W64) (hal : al < W64) :
    WP m ro t F (allocAlignedSimple ro a al n) (AlSimple m ro t a al (adjustSizeForCanary ro.g n) w) tl w := by
  unfold allocAlignedSimple
  refine WP.andThen ((allocAligned_wp hro hF hD hi ha hn hal Nat.one_pos).mono fun r tl2 w2 => ?_)
  rintro ⟨h1, h2⟩
  cases r with
  | error e =>
    refine WP.andThen (WP.setErrno h2.1.inv fun w3 r3 => WP.pure ⟨h1, h2.1.rely r3, ?_⟩)
    refine h2.2.imp (fun ⟨h3, h4⟩ => ⟨h3, fun h5 => h4 ⟨h5, ?_⟩⟩) (fun ⟨h3, h4, _⟩ => ⟨h3, h4⟩)
    obtain ⟨k, rfl⟩ := h5
    exact Nat.two_pow_pos k
  | ok p => exact WP.pure ⟨h1, h2.1, h2.2.2⟩

/-- h_malloc.c:1664-1671. -/
theorem hPvalloc_wp {a n : Nat} {tl : Tl} {w : World} (hro : RoOk ro) (hF : FSys F) (hD : FDirty ro F) (hi : GInv ro w)
    (ha : a < ro.g.nArena) :
    WP m ro t F (hPvalloc ro a n) (fun r tl' w' => (pageAlign n = 0 ∧ r = none ∧ tl'.errno = ENOMEM ∧ tl'.unsealed = tl.unsealed ∧ Idle m ro t w w') ∨
      (pageAlign n ≠ 0 ∧ AlSimple m ro t a PAGE (adjustSizeForCanary ro.g (pageAlign n)) w r tl' w')) tl w := by
  unfold hPvalloc
  by_cases h : pageAlign n = 0
  · rw [if_pos h]
    exact WP.andThen (WP.setErrno hi fun w1 r1 => WP.pure (Or.inl ⟨h, rfl, rfl, rfl, Idle.ofRely hi r1⟩))
  · rw [if_neg h]
    refine (allocAlignedSimple_wp hro hF hD hi ha ?_ (by decide)).mono fun r tl' w' hh => Or.inr ⟨h, hh⟩
    rw [pageAlign_eq]; omega

end HM
