import Verif.SpecPages
import Verif.LocalSections
import Verif.SizeClassLemmas
/-
What the functions on large allocations do (h_malloc.c:945-1119, 1340-1445).
-/
namespace HM

variable {ro : Ro} {m : Mode} {t : Nat} {F : Bad → Choice → World → Prop}

theorem getLargeSizeClass_ok (g : Cfg) {n : Nat} (hn : n < W64) (h0 : getLargeSizeClass g n ≠ 0) :
    n ≤ getLargeSizeClass g n ∧ getLargeSizeClass g n < W64 ∧ (16384 < getLargeSizeClass g n → getLargeSizeClass g n % PAGE = 0) := by
  have e61 : (2 : Nat) ^ 61 = 2305843009213693952 := by decide
  unfold getLargeSizeClass at *
  cases hl : g.largeClasses
  · simp only [hl, Bool.false_eq_true, if_false] at *
    rw [pageAlign_eq] at *
    omega
  · simp only [hl, if_true] at *
    by_cases hov : 7 * 2 ^ 61 < max n PAGE
    · exfalso; apply h0
      rw [getSizeInfo_overflow hov (by omega)]
    · obtain ⟨j, q, hj5, hj61, q5, q8, h1, h2, h3, hs, hw⟩ := getSizeInfo_norm (n := max n PAGE) (by omega) (by omega)
      rw [hs]; simp only
      refine ⟨by omega, hw, fun hbig => ?_⟩
      have hj12 : 12 ≤ j := by
        by_contra hh
        have : 2 ^ j ≤ 2 ^ 11 := Nat.pow_le_pow_right (by decide) (by omega)
        have : q * 2 ^ j ≤ 8 * 2 ^ j := Nat.mul_le_mul_right _ q8
        omega
      have hdv : 4096 ∣ q * 2 ^ j := Nat.dvd_mul_left_of_dvd (Nat.pow_dvd_pow 2 hj12 : 2 ^ 12 ∣ 2 ^ j) q
      exact Nat.mod_eq_zero_of_dvd hdv

/-- The region table cannot grow any more. -/
def TableFull (ro : Ro) (w : World) : Prop := 3 * w.σ.rt.total < 4 * (w.σ.rt.total - w.σ.rt.free) ∧
  (ro.g.maxRegionTable < 2 * w.σ.rt.total ∨ W64 ≤ 48 * w.σ.rt.total + 96)

/-- A new block `p` recorded as a region. -/
structure NewLarge (m : Mode) (ro : Ro) (t size : Nat) (ok : Nat → Prop) (un : Nat) (w0 : World) (p : Nat) (w : World) : Prop where
  at_ : At m ro t (· = p) noFree (0, un) w0 w
  old : w0.G.blk p ≠ .thr t
  blk : w.G.blk p = .thr t
  eff : w.G.eff p = none
  has : ∃ g, w.σ.rt.Has ⟨p, size, g⟩
  ok : ok p
  zero : ∀ x, inRange p (pageUp size) x → w.σ.vm.mem x = 0#8

theorem At.fresh {A : Nat → Prop} {fr : Nat → Nat → Nat} {pu : Nat × Nat} {w0 w : World} (a : At m ro t A fr pu w0 w) {p : Nat}
    (hA : ¬ A p) (h : w.G.blk p ≠ .thr t) : w0.G.blk p ≠ .thr t := fun e => h ((a.blk p hA).mpr e)

theorem NewLarge.rely {size : Nat} {ok : Nat → Prop} {un : Nat} {w0 w w' : World} {p : Nat} (n : NewLarge m ro t size ok un w0 p w)
    (r : Rely m ro t w w') : NewLarge m ro t size ok un w0 p w' := by
  obtain ⟨a, h1, h2, h3, ⟨g, h4⟩, h5, h6⟩ := n
  have k := r.keep a.inv h2
  obtain ⟨k1, k2, k3⟩ := k.large size g h4
  have hes : w.G.effSize ⟨p, size, g⟩ = size := by unfold Gh.effSize; rw [show w.G.eff _ = none from h3]; rfl
  rw [hes] at k3
  exact ⟨a.rely r, h1, k.blk.trans h2, k2.trans h3, ⟨g, k1⟩, h5, fun x hx => (k3 x hx).trans (h6 x hx)⟩

theorem NewLarge.pre {size : Nat} {ok : Nat → Prop} {un : Nat} {w0 w w' : World} {p : Nat} (i : Idle m ro t w0 w)
    (n : NewLarge m ro t size ok un w p w') : NewLarge m ro t size ok un w0 p w' := by
  obtain ⟨a, h1, h2, h3, h4, h5, h6⟩ := n
  exact ⟨(i.trans a).mono (fun _ h => h.elim False.elim id) (fun _ _ => Nat.le_refl _) (by simp), i.fresh id h1, h2, h3, h4, h5, h6⟩

/-- h_malloc.c:1362-1369, 1435-1441. -/
theorem insertRegion_wp {p size guard : Nat} {stats : Bool} {tl : Tl} {w : World} (hro : RoOk ro) (hF : FSys F) (hi : GInv ro w)
    (hu : Unsealed ro tl) (H : HeldRegion t p size guard w) (hz : ZeroP (inPages p size) w) :
    WP m ro t F (insertRegion ro p size guard stats) (fun b tl' w' => tl'.unsealed = tl.unsealed ∧
      match b with
      | true => NewLarge m ro t size (fun _ => True) (if ro.g.stats && !stats then size else 0) w p w'
      | false => Idle m ro t w w' ∧ HeldRegion t p size guard w' ∧
          (tl'.errno = ENOMEM ∨ (tl'.errno = tl.errno ∧ (m = .seq → TableFull ro w')))) tl w := by
  refine WP.critical (fun _ => insertRegion_local) hu fun ch hf => ?_
  by_cases hc : w.σ.rt.free * 4 < w.σ.rt.total ∧ (ch.sys 0 = .other ∨ ch.growRemap = .other)
  · rw [if_pos hc]
    exact hF _ _ _ (hc.2.elim (fun h => Or.inl ⟨0, h⟩) (fun h => Or.inr (Or.inl h)))
  rw [if_neg hc]
  -- the result of the insertion does not depend on the remapping when the table does not grow
  have hrm : regionsInsert hashPage ro.g.maxRegionTable (decide (ch.sys 0 = .ok)) (decide (ch.growRemap = .ok)) w.σ.rt ⟨p, size, guard⟩ =
      regionsInsert hashPage ro.g.maxRegionTable (decide (ch.sys 0 = .ok)) true w.σ.rt ⟨p, size, guard⟩ := by
    by_cases hg : w.σ.rt.free * 4 < w.σ.rt.total
    · have : ch.growRemap = .ok := by
        cases e : ch.growRemap with
        | ok => rfl
        | enomem => exact absurd e hf.1
        | other => exact absurd ⟨hg, Or.inr e⟩ hc
      rw [this]; rfl
    · unfold regionsInsert; rw [if_neg hg, if_neg hg]
  rw [hrm]
  rcases regionsInsert_spec (protOk := decide (ch.sys 0 = .ok)) (maxTotal := ro.g.maxRegionTable) (r := ⟨p, size, guard⟩) hi.rt H.ok.ne0
    (H.not_has hi) with ⟨h1, h2, h3⟩ | ⟨rt', h1, h2, h3⟩
  · rw [h1]
    refine ⟨w.G, (Trans.refl hi).quiet, fun w2 hr => ⟨rfl, Idle.ofRely hi hr, H.rely hi hr, ?_⟩⟩
    by_cases hl : w.σ.rt.total > (W64 - 1) / 24 / 2 ∨ w.σ.rt.total * 2 > ro.g.maxRegionTable
    · right
      rw [if_pos hl]
      refine ⟨rfl, fun hm => ?_⟩
      have e : w2 = w := hr.seq hm
      rw [e]
      exact ⟨h2, hl.elim (fun h => Or.inr (by omega)) (fun h => Or.inl (by omega))⟩
    · left; rw [if_neg hl]
  · rw [h1]
    have hst : StatOk ro w → ((if ro.g.stats && stats then add64 w.σ.largeAllocated size else w.σ.largeAllocated) < W64 ∧
        ((if ro.g.stats && stats then add64 w.σ.largeAllocated size else w.σ.largeAllocated) +
          (if ro.g.stats && !stats then w.G.untracked + size else w.G.untracked)) % W64 =
          (w.σ.largeAllocated + w.G.untracked + size) % W64) ∨ ro.g.stats = false := by
      intro hs
      cases h4 : ro.g.stats
      · exact Or.inr rfl
      · left
        have h5 := (hs.large h4).1
        cases stats
        · simp only [Bool.and_false, Bool.not_false, Bool.and_true, Bool.false_eq_true, if_false, if_true]
          exact ⟨h5, by rw [Nat.add_assoc]⟩
        · simp only [Bool.and_true, Bool.not_true, Bool.and_false, Bool.false_eq_true, if_false, if_true]
          unfold add64
          constructor
          · exact Nat.mod_lt _ (by omega)
          · omega
    refine ⟨_, (insertReg_trans hro hi H h2 h3 hst).quiet rfl rfl (fun q a c i k hq => setBlk_ne _ _ fun e => by
      have hb := (hi.blk q).mpr (Or.inl ⟨a, c, i, k, hq⟩)
      exact hb (e ▸ H.blk hro hi)) (fun hn => ?_), fun w2 hr => ⟨rfl, ?_⟩⟩
    · show (if ro.g.stats && !stats then _ else _) ≤ w.G.untracked
      cases stats
      · exact absurd rfl (hn false)
      · simp
    · have g := insertReg_trans (la := if ro.g.stats && stats then add64 w.σ.largeAllocated size else w.σ.largeAllocated)
        (un := if ro.g.stats && !stats then w.G.untracked + size else w.G.untracked) hro hi H h2 h3 hst
      refine NewLarge.rely ⟨At.ofGuar g (fun q hq => insertReg_keep hro hi H h3 hq) (fun _ _ => Nat.le_refl _) (Nat.le_refl _) ?_, ?_, ?_,
        ?_, ⟨guard, (h3 _).mpr (Or.inr rfl)⟩, trivial, fun x hx => hz x (inPages_of_pageUp H.ok.pmod hx)⟩ hr
      · show (if ro.g.stats && !stats then _ else _) ≤ w.G.untracked + if ro.g.stats && !stats then size else 0
        split <;> omega
      · rw [H.blk hro hi]; simp
      · show setBlk _ _ _ _ = _; rw [setBlk_same]
      · show w.G.eff p = none
        exact H.eff hi

/-- The outcome of a large allocation. -/
def LargePost (m : Mode) (ro : Ro) (t size : Nat) (ok : Nat → Prop) (un : Nat) (tl : Tl) (w : World) (r : Option Nat) (tl' : Tl) (w' : World) : Prop :=
  tl'.unsealed = tl.unsealed ∧
  match r with
  | none => Idle m ro t w w' ∧ (tl'.errno = ENOMEM ∨ (m = .seq → TableFull ro w'))
  | some p => NewLarge m ro t size ok un w p w'

/-- h_malloc.c:1357-1371, 1430-1444. -/
theorem finishLarge_wp {size guard : Nat} {stats : Bool} {ok : Nat → Prop} {tl0 tl : Tl} {w0 w : World} {r : Option Nat} (hro : RoOk ro)
    (hF : FSys F) (hu : Unsealed ro tl0) (h : MapPost m ro t size guard ok tl0 w0 r tl w) :
    WP m ro t F (finishLarge ro size guard stats r) (LargePost m ro t size ok (if ro.g.stats && !stats then size else 0) tl0 w0) tl w := by
  obtain ⟨a, hs, h⟩ := h
  have hi := a.inv
  cases r with
  | none => exact WP.pure ⟨hs, a, Or.inl h⟩
  | some p =>
    obtain ⟨hok, H, hz⟩ := h
    refine WP.andThen ((insertRegion_wp hro hF hi (fun e => hs.trans (hu e)) H hz).mono fun b tl1 w1 h1 => ?_)
    obtain ⟨hs1, h1⟩ := h1
    cases b with
    | true =>
      rw [if_pos rfl]
      obtain ⟨k1, k2, k3, k4, k5, k6, k7⟩ := NewLarge.pre a h1
      exact WP.pure ⟨hs1.trans hs, k1, k2, k3, k4, k5, hok, k7⟩
    | false =>
      rw [if_neg (by simp)]
      obtain ⟨a1, H1, e1⟩ := h1
      refine WP.andThen ((H1.dealloc hro hF a1.inv).mono fun _ tl2 w2 h2 => WP.pure ⟨?_, ?_, ?_⟩)
      · exact h2.2.1.sealed.trans (hs1.trans hs)
      · exact (a.trans0 a1).trans0 h2.1
      · rcases h2.2.1.errno with h | h
        · rcases e1 with e | ⟨e, e'⟩
          · exact Or.inl (h.trans e)
          · right
            intro hm; unfold TableFull; rw [h2.2.2.1 hm]; exact e' hm
        · exact Or.inl h

theorem guardSize_ok (g : Cfg) (ch : Choice) (size : Nat) : guardSize g ch size % PAGE = 0 ∧ PAGE ≤ guardSize g ch size := by
  unfold guardSize
  generalize ch.guard % max 1 (size / PAGE / g.guardSizeDivisor) = n
  omega

theorem drawGuard_wp {size : Nat} {tl : Tl} {w : World} (hi : GInv ro w) (hu : Unsealed ro tl) :
    WP m ro t F (drawGuard ro size) (fun g tl' w' => tl' = tl ∧ Idle m ro t w w' ∧ g % PAGE = 0 ∧ PAGE ≤ g) tl w :=
  WP.read (fun _ => drawGuard_local) hi hu fun ch _ => ⟨rfl, rfl, fun _ hr => ⟨rfl, Idle.ofRely hi hr, guardSize_ok ro.g ch size⟩⟩

theorem LargePost.pre {size : Nat} {ok : Nat → Prop} {un : Nat} {tl : Tl} {w0 w : World} {r : Option Nat} {tl' : Tl} {w' : World}
    (i : Idle m ro t w0 w) (h : LargePost m ro t size ok un tl w r tl' w') : LargePost m ro t size ok un tl w0 r tl' w' := by
  obtain ⟨h1, h2⟩ := h
  refine ⟨h1, ?_⟩
  cases r with
  | none => exact ⟨i.trans0 h2.1, h2.2⟩
  | some p => exact NewLarge.pre i h2

/-- h_malloc.c:1344-1372. -/
theorem allocateLarge_wp {size : Nat} {tl : Tl} {w : World} (hro : RoOk ro) (hF : FSys F) (hi : GInv ro w) (hu : Unsealed ro tl)
    (hlt : size < W64) :
    WP m ro t F (allocateLarge ro size) (LargePost m ro t (getLargeSizeClass ro.g size) (fun _ => True) 0 tl w) tl w := by
  unfold allocateLarge
  simp only
  by_cases h0 : getLargeSizeClass ro.g size = 0
  · rw [if_pos h0]
    exact WP.andThen (WP.setErrno hi fun w2 hr => WP.pure ⟨rfl, Idle.ofRely hi hr, Or.inl rfl⟩)
  rw [if_neg h0]
  obtain ⟨h1, h2, h3⟩ := getLargeSizeClass_ok ro.g hlt h0
  refine WP.andThen ((drawGuard_wp hi hu).mono fun g tl1 w1 h => ?_)
  obtain ⟨rfl, a1, hg, hg1⟩ := h
  refine WP.andThen ((allocatePages_wp hro hF a1.inv hg hg1 (by omega) h3).mono fun r tl2 w2 h => ?_)
  refine (finishLarge_wp (stats := true) hro hF hu h).mono fun r tl3 w3 h => LargePost.pre a1 ?_
  simpa using h

/-- h_malloc.c:1419-1444. -/
theorem allocateOverAligned_wp {size e : Nat} {tl : Tl} {w : World} (hro : RoOk ro) (hF : FSys F) (hi : GInv ro w) (hu : Unsealed ro tl)
    (hlt : size < W64) (he : 12 ≤ e) (he' : e < 64) :
    WP m ro t F (allocateOverAligned ro (2 ^ e) size) (fun r tl' w' => tl'.unsealed = tl.unsealed ∧
      match r with
      | none => Idle m ro t w w'
      | some p => NewLarge m ro t (getLargeSizeClass ro.g size) (fun p => p % 2 ^ e = 0)
          (if ro.g.stats then getLargeSizeClass ro.g size else 0) w p w') tl w := by
  unfold allocateOverAligned
  simp only
  by_cases h0 : getLargeSizeClass ro.g size = 0
  · rw [if_pos h0]
    exact WP.pure ⟨rfl, At.refl hi⟩
  rw [if_neg h0]
  obtain ⟨h1, h2, h3⟩ := getLargeSizeClass_ok ro.g hlt h0
  refine WP.andThen ((drawGuard_wp hi hu).mono fun g tl1 w1 h => ?_)
  obtain ⟨rfl, a1, hg, hg1⟩ := h
  refine WP.andThen ((allocatePagesAligned_wp hro hF a1.inv hg hg1 (by omega) h2 h3 he he').mono fun r tl2 w2 h => ?_)
  refine (finishLarge_wp (stats := false) hro hF hu h).mono fun r tl3 w3 h => ?_
  obtain ⟨k1, k2⟩ := LargePost.pre a1 h
  refine ⟨k1, ?_⟩
  cases r with
  | none => exact k2.1
  | some p => simpa using k2

/-! ### Looking regions up -/

theorem lookupRegion_spec {w : World} (hi : GInv ro w) (p : Nat) :
    (∃ i r, lookupRegion w.σ.rt p = .ok (some (i, r)) ∧ i < w.σ.rt.total ∧ w.σ.rt.tab i = r ∧ r.p = p ∧ w.σ.rt.Has r) ∨
    (lookupRegion w.σ.rt p = .ok none ∧ ∀ r, w.σ.rt.Has r → r.p ≠ p) := by
  unfold lookupRegion
  rcases regionsFind_spec hi.rt p with ⟨i, h1, h2, h3, h4⟩ | ⟨h1, h2⟩
  · left; rw [h4]; exact ⟨i, _, rfl, h1, rfl, h3, by rw [h3]; exact h2, i, h1, rfl⟩
  · right; rw [h2]
    refine ⟨rfl, ?_⟩
    rintro r ⟨hr, i, hlt, rfl⟩ e
    rcases h1 with h1 | h1
    · exact hr (e.trans h1)
    · exact h1 i hlt e

/-- Block `p` belongs to the call in progress in `t`, which is not resizing it. -/
structure Mine (t p : Nat) (w : World) : Prop where
  blk : w.G.blk p = .thr t
  eff : w.G.eff p = none

theorem not_small_has {w : World} (hro : RoOk ro) (hi : GInv ro w) {p a c i k s g : Nat} (hs : IsSmall ro w.σ p a c i k)
    (hr : w.σ.rt.Has ⟨p, s, g⟩) : False := by
  have h1 := hs.own hro hi (x := p) (by have := (classGeo ro.g hs.2.1).size_ge; unfold inRange; omega)
  have R := hi.reg _ hr
  have h2 := hi.reg_body hr (pg := p / PAGE) (by
    have := hi.effPos hr; have := R.pmod; simp only at this; unfold inPages; simp only; omega)
  rw [h1] at h2; exact absurd h2 (by simp)

theorem Mine.keep {p : Nat} {w w' : World} (hro : RoOk ro) (hi : GInv ro w) (hi' : GInv ro w') (h : Mine t p w) (k : KeepB ro w w' p) :
    Mine t p w' := by
  refine ⟨k.blk.trans h.blk, ?_⟩
  rcases (hi.blk p).mp (by rw [h.blk]; simp) with ⟨a, c, i, j, hs⟩ | ⟨s, g, hr⟩
  · cases e : w'.G.eff p with
    | none => rfl
    | some n =>
      obtain ⟨_, s, g, hr, _⟩ := hi'.eff p n e
      exact absurd hr fun hr => not_small_has hro hi' (k.small a c i j hs).1 hr
  · exact (k.large s g hr).2.1.trans h.eff

theorem Mine.at {A : Nat → Prop} {fr : Nat → Nat → Nat} {pu : Nat × Nat} {p : Nat} {w w' : World} (hro : RoOk ro) (hi : GInv ro w)
    (h : Mine t p w) (a : At m ro t A fr pu w w') (hp : ¬ A p) : Mine t p w' := h.keep hro hi a.inv (a.keep p hp h.blk)

theorem inSlab_iff (hro : RoOk ro) {w : World} (hi : GInv ro w) (p : Nat) : ro.inSlab p = true ↔ w.G.own (p / PAGE) = .slab :=
  ((hi.slabOwn _).trans (hro.inSlab_pages p)).symm

theorem IsSmall.inSlab (hro : RoOk ro) {w : World} (hi : GInv ro w) {p a c i k : Nat} (hs : IsSmall ro w.σ p a c i k) : ro.inSlab p = true :=
  (inSlab_iff hro hi p).mpr (hs.own hro hi (x := p) (by have := (classGeo ro.g hs.2.1).size_ge; unfold inRange; omega))

theorem has_not_inSlab (hro : RoOk ro) {w : World} (hi : GInv ro w) {p s g : Nat} (hr : w.σ.rt.Has ⟨p, s, g⟩) : ro.inSlab p = false := by
  cases e : ro.inSlab p with
  | false => rfl
  | true =>
    rw [inSlab_iff hro hi] at e
    have h2 := hi.reg_body hr (pg := p / PAGE) (by
      have := hi.effPos hr; have := (hi.reg _ hr).pmod; simp only at this; unfold inPages; simp only; omega)
    rw [h2] at e; exact absurd e (by simp)

/-- A block outside of the slab region is recorded. -/
theorem Mine.has {w : World} (hro : RoOk ro) (hi : GInv ro w) {p : Nat} (h : w.G.blk p ≠ .nobody) (hs : ro.inSlab p = false) :
    ∃ s g, w.σ.rt.Has ⟨p, s, g⟩ := by
  rcases (hi.blk p).mp h with ⟨a, c, i, k, hs'⟩ | h
  · rw [hs'.inSlab hro hi] at hs; exact absurd hs (by simp)
  · exact h

/-- What may be passed to `free` and `realloc`: a block of the caller, or (in sequential runs) a pointer that is not a live
block. -/
def FreeArg (m : Mode) (t p : Nat) (w : World) : Prop := Mine t p w ∨ (m = .seq ∧ w.G.blk p = .nobody)

theorem FreeArg.idle {p : Nat} {w w' : World} (hro : RoOk ro) (hi : GInv ro w) (h : FreeArg m t p w) (r : Rely m ro t w w') :
    FreeArg m t p w' := by
  rcases h with h | ⟨h1, h2⟩
  · exact Or.inl (h.keep hro hi (r.inv hi) (r.keep hi h.blk))
  · right; rw [r.seq h1]; exact ⟨h1, h2⟩

/-- h_malloc.c:1535-1547, 1779-1786. -/
theorem findRegion_wp {p : Nat} {msg : String} {tl : Tl} {w : World} (hro : RoOk ro) (hi : GInv ro w) (hu : Unsealed ro tl)
    (hp : FreeArg m t p w) (hs : ro.inSlab p = false) (hF : ∀ ch, w.G.blk p = .nobody → F (.fatal msg) ch w) :
    WP m ro t F (findRegion ro p msg) (fun r tl' w' => tl' = tl ∧ Rely m ro t w w' ∧ Mine t p w ∧ w.σ.rt.Has ⟨p, r.1, r.2⟩) tl w := by
  refine WP.read (fun _ => findRegion_local) hi hu fun ch _ => ?_
  rcases lookupRegion_spec hi p with ⟨i, r, h1, h2, h3, h4, h5⟩ | ⟨h1, h2⟩
  · rw [h1]
    subst h4
    refine ⟨rfl, rfl, fun w2 hr => ⟨rfl, hr, ?_, h5⟩⟩
    rcases hp with hp | ⟨_, hp⟩
    · exact hp
    · exact absurd hp ((hi.blk r.p).mpr (Or.inr ⟨r.size, r.guard, h5⟩))
  · rw [h1]
    refine hF ch ?_
    by_contra hb
    obtain ⟨s, g, hr⟩ := Mine.has hro hi hb hs
    exact h2 _ hr rfl

/-- Region `p` has been removed from the table by `t`, which now holds its pages. -/
structure Removed (m : Mode) (ro : Ro) (t p size guard : Nat) (w w' : World) : Prop where
  mine : Mine t p w
  has : w.σ.rt.Has ⟨p, size, guard⟩
  at_ : At m ro t (· = p) noFree 0 w w'
  blk : w'.G.blk p ≠ .thr t
  held : HeldRegion t p size guard w'
  mem : ∀ x, inRange p (pageUp size) x → w'.σ.vm.mem x = w.σ.vm.mem x
  seqBlk : m = .seq → w'.G.blk p = .nobody

/-- h_malloc.c:1384-1396, 1607-1614. -/
theorem removeRegion_wp {p : Nat} {expected : Option Nat} {msg : String} {tl : Tl} {w : World} (hro : RoOk ro) (hi : GInv ro w)
    (hu : Unsealed ro tl) (hp : FreeArg m t p w) (hs : ro.inSlab p = false) (hF : ∀ ch, w.G.blk p = .nobody → F (.fatal msg) ch w)
    (hE : ∀ ch s n g, expected = some n → w.σ.rt.Has ⟨p, s, g⟩ → s ≠ getLargeSizeClass ro.g n →
      F (.fatal "sized deallocation mismatch (large)") ch w) :
    WP m ro t F (removeRegion ro p expected msg) (fun r tl' w' => tl' = tl ∧ Removed m ro t p r.1 r.2 w w' ∧
      ∀ n, expected = some n → r.1 = getLargeSizeClass ro.g n) tl w := by
  refine WP.critical (fun _ => removeRegion_local) hu fun ch _ => ?_
  rcases lookupRegion_spec hi p with ⟨i, r, h1, h2, h3, h4, h5⟩ | ⟨h1, h2⟩
  · rw [h1]
    subst h4
    have hm : Mine t r.p w := by
      rcases hp with hp | ⟨_, hp⟩
      · exact hp
      · exact absurd hp ((hi.blk r.p).mpr (Or.inr ⟨r.size, r.guard, h5⟩))
    simp only
    by_cases hx : (expected.any fun s => r.size ≠ getLargeSizeClass ro.g s) = true
    · rw [if_pos hx]
      cases expected with
      | none => simp at hx
      | some n =>
        simp only [Option.any_some, ne_eq, decide_not, Bool.not_eq_true', decide_eq_false_iff_not] at hx
        exact hE ch r.size n r.guard rfl h5 hx
    · rw [if_neg hx]
      obtain ⟨rt', k1, k2, k3⟩ := regionsDelete_spec hi.rt h2 (by rw [h3]; exact h5.1)
      rw [h3] at k3
      rw [k1]
      simp only
      have g := removeReg_trans (t := t) (la := if ro.g.stats then sub64 w.σ.largeAllocated r.size else w.σ.largeAllocated)
        hro hi h5 hm.eff hm.blk k2 k3 (by cases ro.g.stats <;> simp)
      have hd := removeReg_held (t := t) (la := if ro.g.stats then sub64 w.σ.largeAllocated r.size else w.σ.largeAllocated)
        (rt' := rt') hi h5 hm.eff
      refine ⟨_, g.quiet rfl rfl (fun q a c i k hq => setBlk_ne _ _ fun e => by
        rw [e] at hq; rw [hq.inSlab hro hi] at hs; cases hs), fun w2 hr => ⟨trivial, ⟨hm, h5, ?_, ?_, hd.rely g.inv hr, ?_, ?_⟩, ?_⟩⟩
      · refine At.rely (At.ofGuar g (fun q hq => removeReg_keep hro hi k3 hq) (fun _ _ => Nat.le_refl _) (Nat.le_refl _) (Nat.le_refl _)) hr
      · rw [Ne, hr.blk g.inv]
        show setBlk _ _ _ _ ≠ _
        rw [setBlk_same]; simp
      · intro x hx
        refine ((hr.sameP g.inv).mem x (hd.own _ ?_)).trans rfl
        have R := hi.reg r h5
        exact inPages_body R.pmod R.gmod (by have := R.lo; omega) (inPages_of_pageUp R.pmod hx)
      · intro hm
        have e := hr.seq hm
        rw [e]
        show setBlk _ _ _ _ = _
        rw [setBlk_same]
      · rintro n rfl
        simpa using hx
  · rw [h1]
    refine hF ch ?_
    by_contra hb
    obtain ⟨s, g, hr⟩ := Mine.has hro hi hb hs
    exact h2 _ hr rfl

end HM
