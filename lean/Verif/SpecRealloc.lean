import Verif.SpecRead
import Verif.Props.SizeClass
/-
`h_realloc` (h_malloc.c:1505-1647).
-/
namespace HM

variable {ro : Ro} {m : Mode} {t : Nat} {F : Bad → Choice → World → Prop}

/-! ### Blocks and their bytes -/

/-- Block `p` was allocated for a request of `s` bytes (canary included). -/
def SizeKind (ro : Ro) (w : World) (p s : Nat) : Prop :=
  (s ≤ ro.g.maxSlab ∧ ∃ a i k, IsSmall ro w.σ p a (ro.g.clsOf s) i k) ∨
  (ro.g.maxSlab < s ∧ ∃ g, w.σ.rt.Has ⟨p, getLargeSizeClass ro.g s, g⟩)

theorem SizeKind.keep {w w' : World} {p s : Nat} (h : SizeKind ro w p s) (k : KeepB ro w w' p) : SizeKind ro w' p s :=
  h.imp (fun ⟨h1, a, i, j, h2⟩ => ⟨h1, a, i, j, (k.small _ _ _ _ h2).1⟩) (fun ⟨h1, g, h2⟩ => ⟨h1, g, (k.large _ _ h2).1⟩)

theorem Got.kind {a s p : Nat} {w0 w : World} (g : Got m ro t a s w0 p w) : SizeKind ro w p s := by
  rcases g with ⟨h, n⟩ | ⟨h, n⟩
  · obtain ⟨i, k, h1, _⟩ := n.small; exact Or.inl ⟨h, a, i, k, h1⟩
  · exact Or.inr ⟨h, n.has⟩

theorem KeepB.user {w w' : World} {p x : Nat} (k : KeepB ro w w' p) (h : UserByte ro w p x) :
    UserByte ro w' p x ∧ w'.σ.vm.mem x = w.σ.vm.mem x := by
  rcases h with ⟨a, c, i, j, h1, h2, h3⟩ | ⟨s, g, h1, h3⟩
  · obtain ⟨k1, _, k3⟩ := k.small a c i j h1
    exact ⟨Or.inl ⟨a, c, i, j, k1, h2, h3⟩, k3 x (by unfold inRange at *; omega)⟩
  · obtain ⟨k1, k2, k3⟩ := k.large s g h1
    refine ⟨Or.inr ⟨s, g, k1, ?_⟩, k3 x h3⟩
    have : w'.G.effSize ⟨p, s, g⟩ = w.G.effSize ⟨p, s, g⟩ := by unfold Gh.effSize; simp only; rw [k2]
    rw [this]; exact h3

/-- The usable bytes of a block of `t` may be used by it. -/
theorem UsableIs.user {w : World} {p u : Nat} (hm : Mine t p w) (h : UsableIs ro w p u) {x : Nat} (hx : inRange p u x) : UserByte ro w p x := by
  rcases h with ⟨a, c, i, k, h1, rfl⟩ | ⟨g, h1⟩
  · by_cases hz : ro.g.classSize c = 0
    · rw [if_pos hz] at hx; unfold inRange at hx; omega
    · rw [if_neg hz] at hx; exact Or.inl ⟨a, c, i, k, h1, hz, hx⟩
  · refine Or.inr ⟨u, g, h1, ?_⟩
    have : w.G.effSize ⟨p, u, g⟩ = u := by unfold Gh.effSize; rw [show w.G.eff p = none from hm.eff]; rfl
    rw [this]
    have := pageUp_le_iff (n := u)
    unfold inRange at *; omega

theorem CanaryOk.notBad (hro : RoOk ro) {w : World} (hi : GInv ro w) {p a c i k : Nat} (hs : IsSmall ro w.σ p a c i k) (h : CanaryOk ro w p a c i) : ¬ CanaryBad ro w p := by
  rintro ⟨h0, a', c', i', k', h1, h2, h4⟩
  obtain ⟨rfl, rfl, rfl, rfl⟩ := hs.uniq hro hi h1
  exact h4 (h h2 h0)

theorem Has.notBad (hro : RoOk ro) {w : World} (hi : GInv ro w) {p s g : Nat} (h : w.σ.rt.Has ⟨p, s, g⟩) : ¬ CanaryBad ro w p := by
  rintro ⟨_, a, c, i, k, h1, _⟩
  exact not_small_has hro hi h1 h

theorem CanaryOk.unkeep {w w' : World} {p a c i k : Nat} (h : CanaryOk ro w' p a c i) (kb : KeepB ro w w' p)
    (hs : IsSmall ro w.σ p a c i k) : CanaryOk ro w p a c i := by
  intro hz hc
  obtain ⟨_, k2, k3⟩ := kb.small _ _ _ _ hs
  have hg := (classGeo ro.g hs.2.1).size_ge
  have key : ∀ j, j < 8 → w'.σ.vm.mem (p + ro.g.slotSize c - 8 + j) = w.σ.vm.mem (p + ro.g.slotSize c - 8 + j) := fun j hj =>
    k3 _ (by unfold inRange; omega)
  rw [← k2]
  rcases h hz hc with h | ⟨h0, h⟩
  · exact .inl fun j hj => (key j hj).symm.trans (h j hj)
  · exact .inr ⟨h0, fun j hj => (key j hj).symm.trans (h j hj)⟩

theorem KeepB.canary (hro : RoOk ro) {w w' : World} (hi' : GInv ro w') {p u : Nat} (k : KeepB ro w w' p) (hu : UsableIs ro w p u)
    (h : CanaryBad ro w' p) : CanaryBad ro w p := by
  obtain ⟨h0, a, c, i, j, h1, h2, h4⟩ := h
  rcases hu with ⟨a', c', i', j', h, _⟩ | ⟨g, h⟩
  · obtain ⟨k1, k2, k3⟩ := k.small _ _ _ _ h
    obtain ⟨rfl, rfl, rfl, rfl⟩ := k1.uniq hro hi' h1
    have := (classGeo ro.g h1.2.1).size_ge
    refine ⟨h0, _, _, _, _, h, h2, fun hf => h4 ?_⟩
    rw [k2]
    exact hf.congr fun j hj => k3 _ (by unfold inRange; omega)
  · exact (not_small_has hro hi' h1 (k.large _ _ h).1).elim

theorem SizeKind.exists {w : World} {p s : Nat} (h : SizeKind ro w p s) : ∃ u, UsableIs ro w p u := by
  rcases h with ⟨_, a, i, k, h⟩ | ⟨_, g, h⟩
  · exact ⟨_, Or.inl ⟨a, _, i, k, h, rfl⟩⟩
  · exact ⟨_, Or.inr ⟨g, h⟩⟩

theorem UserByte.back (hro : RoOk ro) {w w' : World} (hi' : GInv ro w') {p s x : Nat} (hk : SizeKind ro w p s) (k : KeepB ro w w' p) (h : UserByte ro w' p x) : UserByte ro w p x := by
  rcases hk with ⟨_, a, i, j, h1⟩ | ⟨_, g, h1⟩
  · obtain ⟨k1, _⟩ := k.small _ _ _ _ h1
    rcases h with ⟨a', c, i', j', h2, h3, h4⟩ | ⟨s', g', h2, _⟩
    · obtain ⟨rfl, rfl, rfl, rfl⟩ := k1.uniq hro hi' h2
      exact Or.inl ⟨_, _, _, _, h1, h3, h4⟩
    · exact (not_small_has hro hi' k1 h2).elim
  · obtain ⟨k1, k2, _⟩ := k.large _ _ h1
    rcases h with ⟨a', c, i', j', h2, _⟩ | ⟨s', g', h2, h3⟩
    · exact (not_small_has hro hi' h2 k1).elim
    · have := hi'.has_unique h2 k1 rfl
      rw [this] at h3
      refine Or.inr ⟨_, g, h1, ?_⟩
      have e : w'.G.effSize ⟨p, getLargeSizeClass ro.g s, g⟩ = w.G.effSize ⟨p, getLargeSizeClass ro.g s, g⟩ := by unfold Gh.effSize; simp only; rw [k2]
      rw [← e]; exact h3

/-- A new block for a request of `s` bytes (canary included) is zero. -/
def Zeros (ro : Ro) (s : Nat) (w : World) : Prop :=
  ro.g.maxSlab < s ∨ ro.g.writeAfterFreeCheck = true ∨ Tagged ro w ∨ (ro.g.zeroOnFree = true ∧ Content ro w)

theorem Zeros.rely {s : Nat} {w w' : World} (hi : GInv ro w) (r : Rely m ro t w w') (h : Zeros ro s w) : Zeros ro s w' :=
  h.imp id (Or.imp id (Or.imp (fun h => h.env (r.env hi)) fun ⟨h1, h2⟩ => ⟨h1, r.content hi h2⟩))

theorem Got.zero_user {w w' : World} {p n a : Nat} (hro : RoOk ro) (h : Got m ro t a n w p w') (hz : Zeros ro n w) {y : Nat} (hy : UserByte ro w' p y) : w'.σ.vm.mem y = 0#8 := by
  rcases h with ⟨h3, h⟩ | ⟨_, h⟩
  · obtain ⟨i, k, h4, _⟩ := h.small
    rcases hy with ⟨a', c, i', k', h5, h6, h7⟩ | ⟨s, g, h5, _⟩
    · obtain ⟨_, rfl, _⟩ := h4.uniq hro h.at_.inv h5
      refine h.zero h6 (hz.resolve_left (by omega)) y ?_
      unfold Cfg.usable; exact h7
    · exact (not_small_has hro h.at_.inv h4 h5).elim
  · obtain ⟨g, h4⟩ := h.has
    rcases hy with ⟨a', c, i', k', h5, _⟩ | ⟨s, g', h5, h6⟩
    · exact (not_small_has hro h.at_.inv h5 h4).elim
    · have := h.at_.inv.has_unique h5 h4 rfl
      rw [this] at h6
      have e : w'.G.effSize ⟨p, getLargeSizeClass ro.g n, g⟩ = getLargeSizeClass ro.g n := by unfold Gh.effSize; rw [show w'.G.eff p = none from h.eff]; rfl
      rw [e] at h6
      exact h.zero y h6

/-- Block `q` of `t` has room for `k` bytes, which are those `old` had in world `w0`. -/
structure NewHas (ro : Ro) (t q old size k : Nat) (w0 w : World) : Prop where
  mine : Mine t q w
  kind : SizeKind ro w q size
  user : ∀ x, x < k → UserByte ro w q (q + x)
  mem : ∀ x, x < k → w.σ.vm.mem (q + x) = w0.σ.vm.mem (old + x)
  canary : ¬ CanaryBad ro w q
  rest : Zeros ro size w0 → ∀ x, k ≤ x → UserByte ro w q (q + x) → w.σ.vm.mem (q + x) = 0#8

theorem NewHas.keep (hro : RoOk ro) {q old size k : Nat} {w0 w w' : World} (hi : GInv ro w) (hi' : GInv ro w')
    (h : NewHas ro t q old size k w0 w) (kb : KeepB ro w w' q) : NewHas ro t q old size k w0 w' :=
  ⟨h.mine.keep hro hi hi' kb, h.kind.keep kb, fun x hx => (kb.user (h.user x hx)).1,
   fun x hx => (kb.user (h.user x hx)).2.trans (h.mem x hx),
   fun hb => h.kind.exists.elim fun _ hu => h.canary (kb.canary hro hi' hu hb),
   fun hz x hx hy => by
     have hy' := UserByte.back hro hi' h.kind kb hy
     exact (kb.user hy').2.trans (h.rest hz x hx hy')⟩

/-- `realloc` turned block `old` of `t` into block `q`, of which the first bytes (up to `N` and to the old size) are those of
`old`. -/
structure Realloced (m : Mode) (ro : Ro) (t old size N : Nat) (w : World) (q : Nat) (w' : World) : Prop where
  arg : Mine t old w
  at_ : At m ro t (fun x => x = old ∨ x = q) (fun a c => if q ≠ old ∧ (a, c) = ro.sizeClassOf old then 1 else 0) (if ro.inSlab old = true then 0 else 1, 0) w w'
  mine : Mine t q w'
  kind : SizeKind ro w' q size ∨ (q = old ∧ ∃ g, w.σ.rt.Has ⟨q, size, g⟩ ∧ w'.σ.rt.Has ⟨q, size, g⟩)
  moved : q ≠ old → w.G.blk q ≠ .thr t ∧ w'.G.blk old ≠ .thr t
  same : ∀ u, UsableIs ro w old u → ∀ x, x < N → x < u → w'.σ.vm.mem (q + x) = w.σ.vm.mem (old + x)
  delay : m = .seq → q ≠ old → ∀ a c i k, IsSmall ro w.σ old a c i k → ro.g.slotWait c ≤ slotDelay ro.g c (w'.σ.sc a c) (w'.G.ql a c) i k
  clean : q ≠ old → SlotClean m ro q w
  canary : q ≠ old → ¬ CanaryBad ro w' q
  class_ : q ≠ old → size ≤ ro.g.maxSlab → ∀ a c i k, IsSmall ro w.σ old a c i k → (getSizeInfo size).size ≠ ro.g.classSize c
  inPlace : q = old → ∀ u v, UsableIs ro w old u → UsableIs ro w' old v → v ≤ u
  rest : q ≠ old → Zeros ro size w → ∀ u, UsableIs ro w old u → ∀ x, min N u ≤ x → UserByte ro w' q (q + x) → w'.σ.vm.mem (q + x) = 0#8
  intact : q ≠ old → Untagged ro w → ∀ a c i k, IsSmall ro w.σ old a c i k → CanaryOk ro w old a c i

theorem KeepB.usable {w w' : World} {p u : Nat} (k : KeepB ro w w' p) (h : UsableIs ro w p u) : UsableIs ro w' p u :=
  h.imp (fun ⟨a, c, i, j, h, e⟩ => ⟨a, c, i, j, (k.small _ _ _ _ h).1, e⟩) (fun ⟨g, h⟩ => ⟨g, (k.large _ _ h).1⟩)

theorem UsableIs.uniq (hro : RoOk ro) {w : World} (hi : GInv ro w) {p u v : Nat} (h : UsableIs ro w p u) (h' : UsableIs ro w p v) : u = v := by
  rcases h with ⟨a, c, i, k, h1, rfl⟩ | ⟨g, h1⟩ <;> rcases h' with ⟨a', c', i', k', h2, rfl⟩ | ⟨g', h2⟩
  · obtain ⟨_, rfl, _⟩ := h1.uniq hro hi h2; rfl
  · exact (not_small_has hro hi h1 h2).elim
  · exact (not_small_has hro hi h2 h1).elim
  · have := hi.has_unique h1 h2 rfl
    simp only [RegionMeta.mk.injEq] at this; omega

theorem Realloced.rely (hro : RoOk ro) {old size N q : Nat} {w w1 w2 : World} (h : Realloced m ro t old size N w q w1) (r : Rely m ro t w1 w2)
    (hN : ∀ x, x < N → UserByte ro w1 q (q + x)) : Realloced m ro t old size N w q w2 where
  arg := h.arg
  at_ := h.at_.rely r
  mine := h.mine.keep hro h.at_.inv (r.inv h.at_.inv) (r.keep h.at_.inv h.mine.blk)
  kind := h.kind.imp (fun k => k.keep (r.keep h.at_.inv h.mine.blk)) fun ⟨e, g, k0, k⟩ => ⟨e, g, k0, ((r.keep h.at_.inv h.mine.blk).large _ _ k).1⟩
  moved := fun e => ⟨(h.moved e).1, fun h' => (h.moved e).2 ((r.blk h.at_.inv old).mp h')⟩
  same := fun u hu x h1 h2 => ((r.keep h.at_.inv h.mine.blk).user (hN x h1)).2.trans (h.same u hu x h1 h2)
  delay := fun hm => by rw [r.seq hm]; exact h.delay hm
  clean := h.clean
  class_ := h.class_
  intact := h.intact
  inPlace := fun e u v hu hv => by
    have kb := r.keep h.at_.inv h.mine.blk
    obtain ⟨v', hv'⟩ : ∃ v', UsableIs ro w1 q v' := by
      rcases h.kind with k | ⟨_, g, _, k⟩
      · exact k.exists
      · exact ⟨_, Or.inr ⟨g, k⟩⟩
    rw [← e] at hv
    rw [hv.uniq hro (r.inv h.at_.inv) (kb.usable hv')]
    rw [e] at hv'
    exact h.inPlace e u v' hu hv'
  rest := fun e hz u hu x hx hy => by
    rcases h.kind with k | ⟨k, _⟩
    · have kb := r.keep h.at_.inv h.mine.blk
      have hy' := UserByte.back hro (r.inv h.at_.inv) k kb hy
      exact (kb.user hy').2.trans (h.rest e hz u hu x hx hy')
    · exact absurd k e
  canary := fun e hb => by
    have kb := r.keep h.at_.inv h.mine.blk
    refine h.canary e ?_
    rcases h.kind with k | ⟨k, _⟩
    · obtain ⟨_, hu⟩ := k.exists
      exact kb.canary hro (r.inv h.at_.inv) hu hb
    · exact absurd k e

/-! ### Outside of the slab region -/

/-- The index computed for an address outside of the slab region is out of bounds. -/
theorem sizeClassOf_out (hro : RoOk ro) {p : Nat} (hp : p < W64) (hs : ro.inSlab p = false) :
    nClasses ro.g ≤ (ro.sizeClassOf p).2 ∨ ro.g.nArena ≤ (ro.sizeClassOf p).1 := by
  by_contra hc
  simp only [not_or, Nat.not_le] at hc
  obtain ⟨h1, h2⟩ := hc
  have hhi := hro.hi
  have hlo := hro.lo
  unfold Ro.sizeClassOf at h1 h2
  have hA := hro.valid.nArenaMin
  have hR : 0 < ro.g.realClassRegionSize := by
    have := hro.gapHi 0 0 (by omega) (nClasses_pos ro.g); omega
  have e : ro.slabEnd = ro.slabStart + ro.arenaSize * ro.g.nArena := rfl
  have e2 : ro.arenaSize = ro.g.realClassRegionSize * nClasses ro.g := rfl
  unfold Ro.inSlab at hs
  simp only [Bool.and_eq_false_iff, decide_eq_false_iff_not] at hs
  have hoff : ro.arenaSize * ro.g.nArena ≤ sub64 p ro.slabStart := by
    rcases hs with hs | hs
    · rw [sub64_of_le hp (by omega)]; omega
    · rw [sub64_of_gt (by omega) (by omega)]; omega
  have hpos : 0 < ro.arenaSize := by rw [e2]; exact Nat.mul_pos hR (nClasses_pos ro.g)
  by_cases h : 1 < ro.g.nArena
  · rw [if_pos h] at h2
    simp only at h2
    have : ro.g.nArena ≤ sub64 p ro.slabStart / ro.arenaSize := (Nat.le_div_iff_mul_le hpos).mpr (by rw [Nat.mul_comm]; exact hoff)
    omega
  · rw [if_neg h] at h1
    simp only at h1
    have e1 : ro.g.nArena = 1 := by omega
    have : nClasses ro.g ≤ sub64 p ro.slabStart / ro.g.realClassRegionSize :=
      (Nat.le_div_iff_mul_le hR).mpr (by rw [Nat.mul_comm, ← e2]; rw [e1, Nat.mul_one] at hoff; exact hoff)
    omega

/-- `deallocate_small` on such an address indexes past the end of its array. -/
theorem smallFree_out {p : Nat} {expected : Option Nat} {Q : Unit → Tl → World → Prop} {tl : Tl} {w : World} (hro : RoOk ro) (hu : Unsealed ro tl) (hp : p < W64)
    (hs : ro.inSlab p = false) (hU : ∀ why ch, F (.ub why) ch w) : WP m ro t F (smallFree ro p expected) Q tl w := by
  have ho := sizeClassOf_out hro hp hs
  refine WP.critical (fun _ => LocalS.guarded (fun a c fr e hc => by cases e; omega) fun h => absurd ho h) hu fun ch _ => ?_
  simp only
  rw [if_pos (sizeClassOf_out hro hp hs)]
  exact hU _ ch

/-! ### Copying -/

theorem copySize_eq (g : Cfg) (size oldSize : Nat) : copySize g size oldSize = g.payload (min size oldSize) := rfl

theorem payload_mono {g : Cfg} {a b : Nat} (h : a ≤ b) : g.payload a ≤ g.payload b := by
  unfold Cfg.payload
  by_cases h1 : 0 < a ∧ a ≤ g.maxSlab
  · rw [if_pos h1]; split <;> omega
  · rw [if_neg h1]; split <;> omega

theorem payload_min (g : Cfg) (a b : Nat) : g.payload (min a b) = min (g.payload a) (g.payload b) := by
  rcases Nat.le_total a b with h | h
  · rw [Nat.min_eq_left h, Nat.min_eq_left (payload_mono h)]
  · rw [Nat.min_eq_right h, Nat.min_eq_right (payload_mono h)]

theorem classSize_le_maxSlab {g : Cfg} {c : Nat} (hc : c < nClasses g) : g.classSize c ≤ g.maxSlab := by
  revert hc
  unfold nClasses Cfg.classSize sizeClasses Cfg.maxSlab
  cases g.extended
  · simp only [Bool.false_eq_true, if_false]
    intro hc
    have : ∀ c, c < 37 → (sizeClassesBase.getD c 0) ≤ 16384 := by decide
    exact this c hc
  · simp only [if_true]
    intro hc
    have : ∀ c, c < 49 → ((sizeClassesBase ++ sizeClassesExt).getD c 0) ≤ 131072 := by decide
    exact this c hc

/-- The old block as `h_realloc` sees it: in the slab region, or a region of `t`. -/
def OldIs (ro : Ro) (t old oldSize size : Nat) (w : World) : Prop :=
  (ro.inSlab old = true ∧ oldSize = ro.slabUsableSize old ∧ (size ≤ ro.g.maxSlab → (getSizeInfo size).size ≠ oldSize)) ∨
  (ro.inSlab old = false ∧ Mine t old w ∧ ∃ g, w.σ.rt.Has ⟨old, oldSize, g⟩)

theorem OldIs.usable (hro : RoOk ro) {old oldSize size u : Nat} {w : World} (hi : GInv ro w) (h : OldIs ro t old oldSize size w)
    (hu : UsableIs ro w old u) (hub : ro.inSlab old = false → ro.g.maxSlab < oldSize) : ro.g.payload oldSize = u := by
  rcases h with ⟨h1, h2, _⟩ | ⟨h1, _, g, h2⟩
  · rcases hu with ⟨a, c, i, k, h3, rfl⟩ | ⟨g, h3⟩
    · have G := classGeo ro.g h3.2.1
      have : oldSize = ro.g.classSize c := by rw [h2]; unfold Ro.slabUsableSize; rw [h3.cls hro hi]
      unfold Cfg.payload Cfg.usable Cfg.slotSize
      rw [this]
      have := classSize_le_maxSlab h3.2.1
      by_cases hz : ro.g.classSize c = 0
      · rw [if_neg (by omega), if_pos hz, hz]
      · rw [if_pos ⟨by omega, this⟩, if_neg hz, if_neg hz]
    · rw [has_not_inSlab hro hi h3] at h1; exact absurd h1 (by simp)
  · have := UsableIs.uniq hro hi hu (Or.inr ⟨g, h2⟩)
    subst this
    have := hub h1
    unfold Cfg.payload
    rw [if_neg (by omega)]

/-- A new block is not the old one. -/
theorem Got.ne_old (hro : RoOk ro) {a size old oldSize p : Nat} {w w1 w2 : World} (r1 : Rely m ro t w w1) (hi : GInv ro w)
    (hO : OldIs ro t old oldSize size w) (g : Got m ro t a size w1 p w2) : p ≠ old := by
  rintro rfl
  rcases hO with ⟨h1, h2, h3⟩ | ⟨h1, h2, _⟩
  · rcases g with ⟨h, n⟩ | ⟨_, n⟩
    · obtain ⟨i, k, h4, _⟩ := n.small
      refine h3 h ?_
      rw [h2, ← classSize_clsOf h]
      unfold Ro.slabUsableSize
      rw [h4.cls hro n.at_.inv]
    · obtain ⟨z, h4⟩ := n.has
      rw [has_not_inSlab hro n.at_.inv h4] at h1; exact absurd h1 (by simp)
  · have : w1.G.blk p = .thr t := (r1.blk hi p).mpr h2.blk
    rcases g with ⟨_, n⟩ | ⟨_, n⟩ <;> exact n.old this

/-- What may be said about `free(p)` later, when `p` has not been touched. -/
theorem FFree.later (hro : RoOk ro) {A : Nat → Prop} {fr : Nat → Nat → Nat} {pu : Nat × Nat} {p : Nat} {w w' : World} (hi : GInv ro w)
    (hA : FFree ro t p none none w F) (hp : FreeArg m t p w) (a : At m ro t A fr pu w w') (hn : ¬ A p) :
    FreeArg m t p w' ∧ FFree ro t p none none w' F := by
  have hb : w'.G.blk p = .nobody → w.G.blk p = .nobody := by
    intro h
    rcases hp with h1 | ⟨_, h1⟩
    · rw [(a.blk p hn).mpr h1.blk] at h; exact absurd h (by simp)
    · exact h1
  have hm : Mine t p w' → Mine t p w := by
    intro h
    rcases hp with h1 | ⟨_, h1⟩
    · exact h1
    · have := (a.blk p hn).mp h.blk
      rw [h1] at this; exact absurd this (by simp)
  refine ⟨?_, fun h => hA.nobody (hb h), fun h hc => ?_, fun _ _ _ _ _ _ h => absurd h (by simp), fun _ _ _ _ h => absurd h (by simp)⟩
  · rcases hp with h1 | ⟨h1, h2⟩
    · exact Or.inl (h1.at hro hi a hn)
    · exact Or.inr ⟨h1, a.nob h1 p hn h2⟩
  · have hm0 := hm h
    refine hA.canary hm0 ?_
    have kb := a.keep p hn hm0.blk
    obtain ⟨h0, x, c, i, k, h1, h2, h4⟩ := hc
    rcases (hi.blk p).mp (by rw [hm0.blk]; simp) with ⟨x', c', i', k', h5⟩ | ⟨s, g, h5⟩
    · obtain ⟨k1, k2, k3⟩ := kb.small _ _ _ _ h5
      obtain ⟨rfl, rfl, rfl, rfl⟩ := k1.uniq hro a.inv h1
      have := (classGeo ro.g h1.2.1).size_ge
      refine ⟨h0, x, c, i, k, h5, h2, fun hf => h4 ?_⟩
      rw [k2]
      exact hf.congr fun j hj => k3 _ (by unfold inRange; omega)
    · exact (not_small_has hro a.inv h1 (kb.large s g h5).1).elim

/-- Copying into a new block does not touch its canary. -/
theorem copy_canary (hro : RoOk ro) {a s q b k : Nat} {w0 w : World} (h : Got m ro t a s w0 q w) (hb : ∀ x, inRange q k x → UserByte ro w q x) :
    ¬ CanaryBad ro (w.setMem (w.σ.vm.copy q b k)) q := by
  rintro ⟨h0, a', c, i, j, h1, h2, h4⟩
  replace h1 : IsSmall ro w.σ q a' c i j := h1
  rcases h with ⟨_, n⟩ | ⟨_, n⟩
  · obtain ⟨i', j', h5, h6⟩ := n.small
    obtain ⟨rfl, rfl, rfl, rfl⟩ := h5.uniq hro n.at_.inv h1
    refine h4 ((h6 h2 h0).congr fun l h3 => ?_)
    have e : ro.g.canarySize = 8 := by unfold Cfg.canarySize; rw [if_pos h0]
    have hge := (classGeo ro.g h1.2.1).size_ge
    show (if inRange q k _ then _ else _) = _
    by_cases hx : inRange q k (q + ro.g.slotSize (ro.g.clsOf s) - 8 + l)
    · exfalso
      rcases hb _ hx with ⟨a2, c2, i2, j2, h7, _, h8⟩ | ⟨s2, g2, h7, _⟩
      · obtain ⟨_, rfl, _⟩ := h7.uniq hro n.at_.inv h1
        unfold inRange at h8; omega
      · exact not_small_has hro n.at_.inv h1 h7
    · rw [if_neg hx]
  · obtain ⟨_, h5⟩ := n.has
    exact not_small_has hro n.at_.inv h1 h5

/-- h_malloc.c:1630-1646. -/
theorem reallocCopy_wp {a old oldSize size : Nat} {tl : Tl} {w w1 : World} (hro : RoOk ro) (hF : FSys F) (hD : FDirty ro F) (hi : GInv ro w)
    (r1 : Rely m ro t w w1) (hu : Unsealed ro tl) (ha : a < ro.g.nArena) (hs : size < W64) (hp : FreeArg m t old w) (hO : OldIs ro t old oldSize size w)
    (hA : FFree ro t old none none w F) (hS : w.G.blk old = .nobody → ∀ ch w2, F .segv ch w2)
    (hU : (∃ g, w.σ.rt.Has ⟨old, oldSize, g⟩) → oldSize ≤ ro.g.maxSlab → ∀ why ch w2, F (.ub why) ch w2) :
    WP m ro t F (reallocCopy ro a old oldSize size) (fun r tl' w' => tl'.unsealed = false ∧
      match r with
      | none => Denied m ro t a size w tl'.errno w'
      | some q => Realloced m ro t old size (ro.g.payload size) w q w') tl w1 := by
  have hi1 := r1.inv hi
  unfold reallocCopy
  refine WP.andThen ((allocate_wp hro hF hD hi1 hu ha hs).mono fun r tl2 w2 => ?_)
  rintro ⟨hs2, h2⟩
  cases r with
  | none => exact WP.andThen (WP.sealM h2.1.inv fun w3 r3 => WP.pure ⟨rfl, (h2.pre hi r1).rely r3⟩)
  | some new =>
    have hne := Got.ne_old hro r1 hi hO h2
    have nb := Got.newBlk hro hs h2
    have hkind := Got.kind h2
    have hi2 := nb.at_.inv
    have a2 : At m ro t (· = new) noFree 0 w w2 := Idle.pre hi r1 nb.at_
    have hold : w.G.blk new ≠ .thr t := fun e => nb.old ((r1.blk hi new).mpr e)
    simp only
    rw [copySize_eq, payload_min]
    generalize hk : min (ro.g.payload size) (ro.g.payload oldSize) = k
    have hb : ∀ x, inRange new k x → UserByte ro w2 new x := fun x hx => nb.bytes x (by unfold inRange at *; omega)
    have hsrc : Mine t old w → w2.G.blk old = .thr t ∧ ∀ x, inRange old k x → UserByte ro w2 old x := by
      intro hp
      have kb := a2.keep old (fun e => hne e.symm) hp.blk
      have hm2 := hp.keep hro hi hi2 kb
      refine ⟨hm2.blk, fun x hx => ?_⟩
      have hx' : inRange old (ro.g.payload oldSize) x := by unfold inRange at *; omega
      have hub : UserByte ro w old x := by
        rcases (hi.blk old).mp (by rw [hp.blk]; simp) with ⟨a', c, i, j, h1⟩ | ⟨s', g, h1⟩
        · have u : UsableIs ro w old (if ro.g.classSize c = 0 then 0 else ro.g.usable c) := Or.inl ⟨a', c, i, j, h1, rfl⟩
          have hin := h1.inSlab hro hi
          have := hO.usable hro hi u (fun e => by rw [hin] at e; exact absurd e (by simp))
          rw [this] at hx'; exact u.user hp hx'
        · rcases hO with ⟨h2, _⟩ | ⟨_, _, g', h2⟩
          · rw [has_not_inSlab hro hi h1] at h2; exact absurd h2 (by simp)
          · refine UsableIs.user hp (u := oldSize) (Or.inr ⟨g', h2⟩) ?_
            have : ro.g.payload oldSize ≤ oldSize := by unfold Cfg.payload; split <;> omega
            unfold inRange at *; omega
      exact (kb.user hub).1
    refine WP.andThen (WP.memCopy hro hi2 nb.mine.blk hb (fun hm x hx => ?_) ?_ fun w3 r3 => ?_)
    · rcases hp with hp | ⟨h, _⟩
      · exact Or.inl ⟨old, (hsrc hp).1, (hsrc hp).2 x hx⟩
      · rw [hm] at h; cases h
    · intro ch hacc
      refine hS ?_ ch w2
      rcases hp with hp | ⟨_, hp⟩
      · exfalso
        have : w2.σ.vm.accessible old k = true := Vm.accessible_of_pages fun x hx => ((hsrc hp).2 x hx).rw hro hi2
        rw [this] at hacc; exact absurd hacc (by simp)
      · exact hp
    · have st := copy_step (b := old) hb
      have a3' : At m ro t (· = new) noFree 0 w (w2.setMem (w2.σ.vm.copy new old k)) :=
        (a2.trans (st.at hro hi2 nb.mine.blk)).mono (fun _ h => h.elim id id) (fun _ _ => Nat.le_refl _) (by simp)
      have nh : Mine t old w → NewHas ro t new old size k w (w2.setMem (w2.σ.vm.copy new old k)) ∨ ro.inSlab old = false ∧ oldSize ≤ ro.g.maxSlab := by
        intro hm
        by_cases hbad : ro.inSlab old = false ∧ oldSize ≤ ro.g.maxSlab
        · exact Or.inr hbad
        refine Or.inl ⟨⟨nb.mine.blk, nb.mine.eff⟩, hkind, fun x hx => hb _ (by unfold inRange; omega), fun x hx => ?_, copy_canary hro h2 hb, fun hz x hx hy => ?_⟩
        rotate_right
        · show (if inRange new k (new + x) then _ else _) = _
          rw [if_neg (by unfold inRange; omega)]
          exact h2.zero_user hro (hz.rely hi r1) hy
        show (if inRange new k (new + x) then _ else _) = _
        rw [if_pos (by unfold inRange; omega)]
        rw [show old + (new + x - new) = old + x by omega]
        have kb := a2.keep old (fun e => hne e.symm) hm.blk
        obtain ⟨u, hus⟩ : ∃ u, UsableIs ro w old u := by
          rcases (hi.blk old).mp (by rw [hm.blk]; simp) with ⟨a', c, i, j, h1⟩ | ⟨s', g, h1⟩
          · exact ⟨_, Or.inl ⟨a', c, i, j, h1, rfl⟩⟩
          · exact ⟨_, Or.inr ⟨g, h1⟩⟩
        have := hO.usable hro hi hus (fun e => by
          rcases Nat.lt_or_ge ro.g.maxSlab oldSize with h | h
          · exact h
          · exact absurd ⟨e, h⟩ hbad)
        exact (kb.user (hus.user hm (by unfold inRange; omega))).2
      have hi3' := a3'.inv
      have a3 := a3'.rely r3
      have hi3 := a3.inv
      have hneA : ¬ (old = new) := fun e => hne e.symm
      obtain ⟨hp3, hA3⟩ := FFree.later hro hi hA hp a3 hneA
      have mine3 : Mine t old w3 → Mine t old w := by
        intro h
        rcases hp with h1 | ⟨_, h1⟩
        · exact h1
        · have := (a3.blk old hneA).mp h.blk
          rw [h1] at this; exact absurd this (by simp)
      -- what remains to be shown once the old block has been freed
      have fin : ∀ w4, Mine t old w → ¬ (ro.inSlab old = false ∧ oldSize ≤ ro.g.maxSlab) → w4.G.blk old ≠ .thr t →
          At m ro t (· = old) (fun a c => if (a, c) = ro.sizeClassOf old then 1 else 0) (if ro.inSlab old = true then 0 else 1, 0) w3 w4 →
          (m = .seq → ∀ a c i k, IsSmall ro w3.σ old a c i k → ro.g.slotWait c ≤ slotDelay ro.g c (w4.σ.sc a c) (w4.G.ql a c) i k) →
          (Untagged ro w → ∀ a c i k, IsSmall ro w.σ old a c i k → CanaryOk ro w old a c i) →
          ∀ w5, Rely m ro t w4 w5 → Realloced m ro t old size (ro.g.payload size) w new w5 := by
        intro w4 hm hbad hg a4 hdel hint w5 r5
        have n3 := ((nh hm).resolve_right hbad).keep hro hi3' hi3 (r3.keep hi3' nb.mine.blk)
        have n4 := n3.keep hro hi3 a4.inv (a4.keep new hne n3.mine.blk)
        have n5 := n4.keep hro a4.inv (r5.inv a4.inv) (r5.keep a4.inv n4.mine.blk)
        refine ⟨hm, ?_, n5.mine, Or.inl n5.kind, fun _ => ⟨hold, fun e => hg ((r5.blk a4.inv old).mp e)⟩, fun u hus x h1 h2 => ?_, fun hsq _ a' c i j h1 => ?_, fun _ hsq => by rw [← r1.seq hsq]; exact nb.clean hsq, fun _ => n5.canary,
          fun _ hsz a' c i j h1 => ?_, fun e => absurd e hne, fun _ hz u hus x hx hy => ?_, fun _ => hint⟩
        rotate_right
        · have := hO.usable hro hi hus (fun e => by
            rcases Nat.lt_or_ge ro.g.maxSlab oldSize with h | h
            · exact h
            · exact absurd ⟨e, h⟩ hbad)
          exact n5.rest hz x (by omega) hy
        rotate_right
        · rcases hO with ⟨h2, h3, h4⟩ | ⟨h2, _⟩
          · refine fun e => h4 hsz ?_
            rw [e, h3]; unfold Ro.slabUsableSize; rw [h1.cls hro hi]
          · rw [h1.inSlab hro hi] at h2; cases h2
        · exact ((a3.trans a4).rely r5).mono (fun q h => h.elim Or.inr Or.inl) (fun _ _ => by simp [hne]) (by simp)
        · have := hO.usable hro hi hus (fun e => by
            rcases Nat.lt_or_ge ro.g.maxSlab oldSize with h | h
            · exact h
            · exact absurd ⟨e, h⟩ hbad)
          exact n5.mem x (by omega)
        · rw [r5.seq hsq]
          exact hdel hsq a' c i j ((a3.keep old hneA hm.blk).small a' c i j h1).1
      by_cases hsm : oldSize ≤ ro.g.maxSlab
      · rw [if_pos hsm]
        cases hin : ro.inSlab old with
        | true =>
          refine WP.andThen ((freeSmall_wp hro hF hi3 (Rely.refl hi3) (fun e => hs2.trans (hu e)) hp3 hin hA3).mono fun _ tl4 w4 => ?_)
          rintro ⟨_, _, h4⟩
          obtain ⟨a', c, i, j, h5, h6, _, h7, _⟩ := h4.small
          refine WP.andThen (WP.sealM h4.at_.inv fun w5 r5 => WP.pure ⟨rfl, fin w4 (mine3 h4.mine) (by rw [hin]; simp) h4.blk
            (h4.at_.mono (fun _ h => h) (fun _ _ => Nat.le_refl _) (by simp [Prod.le_def])) (fun hsq a'' c' i' j' h8 => ?_) (fun hut a'' c' i' j' h8 => ?_) w5 r5⟩)
          · obtain ⟨rfl, rfl, rfl, rfl⟩ := h5.uniq hro hi3 h8
            exact h7 hsq
          · have kb := a3.keep old hneA (mine3 h4.mine).blk
            obtain ⟨rfl, rfl, rfl, rfl⟩ := h5.uniq hro hi3 (kb.small _ _ _ _ h8).1
            exact (h6 (hut.env a3.env)).unkeep kb h8
        | false =>
          rcases hO with ⟨h, _⟩ | ⟨_, hm, g, h⟩
          · rw [hin] at h; exact absurd h (by simp)
          · have := (hi.reg _ h).hi
            simp only at this
            exact WP.andThen (smallFree_out hro (fun e => hs2.trans (hu e)) (by omega) hin fun why ch => hU ⟨g, h⟩ hsm why ch w3)
      · rw [if_neg hsm]
        have hin : ro.inSlab old = false := by
          rcases hO with ⟨h, h', _⟩ | ⟨h, _⟩
          · have := classSize_le_maxSlab (hro.sizeClassOf_lt h).2.1
            unfold Ro.slabUsableSize at h'; omega
          · exact h
        refine WP.andThen ((freeLarge_wp hro hF hi3 (Rely.refl hi3) hp3 hin hA3).mono fun _ tl4 w4 => ?_)
        rintro ⟨_, h4⟩
        refine WP.andThen (WP.sealM h4.at_.inv fun w5 r5 => WP.pure ⟨rfl, fin w4 (mine3 h4.mine) (fun h => hsm h.2) h4.blk
          (h4.at_.mono (fun _ h => h) (fun _ _ => Nat.zero_le _) (by rw [hin]; exact le_refl _)) (fun hsq a'' c' i' j' h8 => ?_) (fun hut a'' c' i' j' h8 => ?_) w5 r5⟩)
        · rw [h8.inSlab hro hi3] at hin; exact absurd hin (by simp)
        · rw [h8.inSlab hro hi] at hin; exact absurd hin (by simp)

/-! ### Moving -/

theorem HeldRegion.sameP {p size guard : Nat} {w w' : World} (H : HeldRegion t p size guard w) (s : SameP t w w') : HeldRegion t p size guard w' := by
  have h1 := H.ok.pmod; have h2 := H.ok.gmod; have h3 := H.ok.lo
  simp only at h1 h2 h3
  refine ⟨H.ok, fun pg hx => (s.pages pg).mpr (H.own pg hx), fun pg hx => ?_, fun pg hx => ?_, fun pg hx => ?_⟩
  · exact (s.prot pg (H.own pg (inPages_body h1 h2 (by omega) hx))).trans (H.rw pg hx)
  · refine (s.prot pg (H.own pg ?_)).trans (H.lo pg hx)
    unfold RegPages pageUp; unfold inPages at *; omega
  · refine (s.prot pg (H.own pg ?_)).trans (H.hi pg hx)
    unfold RegPages; unfold inPages pageUp at *; omega

/-- h_malloc.c:1601-1624. -/
theorem reallocMove_wp {old oldSize guard size : Nat} {tl : Tl} {w w1 : World} (hro : RoOk ro) (hF : FSys F) (hi : GInv ro w)
    (r1 : Rely m ro t w w1) (hu : Unsealed ro tl) (hs : size < W64) (hm : Mine t old w) (hO : w.σ.rt.Has ⟨old, oldSize, guard⟩)
    (hbig : ro.g.maxSlab < size) (hid : getLargeSizeClass ro.g size = size) (hth : MREMAP_MOVE_THRESHOLD ≤ oldSize) :
    WP m ro t F (reallocMove ro old oldSize guard size) (fun r tl' w' => tl'.unsealed = false ∧
      match r with
      | none => Idle m ro t w w' ∧ (tl'.errno = ENOMEM ∨ (m = .seq → TableFull ro w'))
      | some q => Realloced m ro t old size size w q w') tl w1 := by
  have hi1 := r1.inv hi
  unfold reallocMove
  refine WP.andThen ((allocateLarge_wp hro hF hi1 hu hs).mono fun r tl2 w2 => ?_)
  rintro ⟨hs2, h2⟩
  cases r with
  | none =>
    exact WP.andThen (WP.sealM h2.1.inv fun w3 r3 => WP.pure ⟨rfl, (Idle.pre hi r1 h2.1).rely r3, h2.2.imp id fun h hsq => by rw [r3.seq hsq]; exact h hsq⟩)
  | some new =>
    simp only at h2 ⊢
    have hkind : SizeKind ro w2 new size := Or.inr ⟨hbig, h2.has⟩
    rw [hid] at h2
    have hi2 := h2.at_.inv
    have a2 : At m ro t (· = new) noFree 0 w w2 := Idle.pre hi r1 h2.at_
    have hold : w.G.blk new ≠ .thr t := fun e => h2.old ((r1.blk hi new).mpr e)
    have hne : new ≠ old := fun e => hold (by rw [e]; exact hm.blk)
    have hneA : ¬ (old = new) := fun e => hne e.symm
    have kb2 := a2.keep old hneA hm.blk
    have hm2 := hm.keep hro hi hi2 kb2
    have hO2 := (kb2.large _ _ hO).1
    have nb := h2.newBlk hro (Nat.le_refl size)
    have hes : w.G.effSize ⟨old, oldSize, guard⟩ = oldSize := by unfold Gh.effSize; rw [show w.G.eff old = none from hm.eff]; rfl
    refine WP.andThen ((removeRegion_wp hro hi2 (fun e => hs2.trans (hu e)) (Or.inl hm2) (has_not_inSlab hro hi hO) (fun ch hb => ?_)
      (fun _ _ _ _ h => absurd h (by simp))).mono fun r tl3 w3 => ?_)
    · rw [hm2.blk] at hb; exact absurd hb (by simp)
    · rintro ⟨rfl, h3, _⟩
      have er := hi2.has_unique h3.has hO2 rfl
      simp only [RegionMeta.mk.injEq, true_and] at er
      rw [er.1, er.2] at h3
      have hi3 := h3.at_.inv
      have a3 := a2.trans h3.at_
      have R := h3.held.ok
      have p1 := R.pmod; have p2 := R.gmod; have p3 := R.gpos; have p4 := R.lo; have p5 := R.size; have p6 := R.hi
      simp only at p1 p2 p3 p4 p5 p6
      -- the bytes of the old block
      have hmem3 : ∀ x, x < oldSize → w3.σ.vm.mem (old + x) = w.σ.vm.mem (old + x) := by
        intro x hx
        have h4 := pageUp_le_iff (n := oldSize)
        have h5 : inRange old (pageUp oldSize) (old + x) := by unfold inRange; omega
        rw [h3.mem _ h5]
        exact (kb2.large _ _ hO).2.2 _ (by rw [hes]; exact h5)
      have kb3 := h3.at_.keep new hne h2.blk
      have mine3 := nb.mine.keep hro hi2 hi3 kb3
      have kind3 := hkind.keep kb3
      have user3 : ∀ x, inRange new size x → UserByte ro w3 new x := fun x hx => (kb3.user (nb.bytes x hx)).1
      obtain ⟨g3, has3⟩ : ∃ g, w3.σ.rt.Has ⟨new, size, g⟩ := by
        obtain ⟨g, h⟩ := h2.has; exact ⟨g, (kb3.large _ _ h).1⟩
      have q5 := (hi3.reg _ has3).big (by have := maxSlab_cases ro.g; show 16384 < size; omega)
      simp only at q5
      have user_in3 : ∀ y, UserByte ro w3 new y → inRange new size y := by
        intro y hy
        rcases hy with ⟨a', c, i', k', h5, _⟩ | ⟨s, g', h5, h6⟩
        · exact (not_small_has hro hi3 h5 has3).elim
        · have := hi3.has_unique h5 has3 rfl
          rw [this] at h6
          have e : w3.G.effSize ⟨new, size, g3⟩ = size := by unfold Gh.effSize; rw [show w3.G.eff new = none from mine3.eff]; rfl
          rw [e] at h6
          unfold pageUp at h6; unfold inRange at *; omega
      have zero3 : ∀ y, UserByte ro w3 new y → w3.σ.vm.mem y = 0#8 := fun y hy => by
        have hy' := UserByte.back hro hi3 hkind kb3 hy
        refine (kb3.user hy').2.trans (h2.zero y ?_)
        have := user_in3 y hy
        unfold pageUp; unfold inRange at *; omega
      -- the end of the call
      have fin : ∀ w4, NewHas ro t new old size (min size oldSize) w w4 → w4.G.blk old ≠ .thr t →
          At m ro t (· = new) noFree 0 w3 w4 → ∀ w5, Idle m ro t w4 w5 → Realloced m ro t old size size w new w5 := by
        intro w4 n4 hg a4 w5 r5
        have n5 := n4.keep hro a4.inv r5.inv (r5.keep new id n4.mine.blk)
        refine ⟨hm, ?_, n5.mine, Or.inl n5.kind, fun _ => ⟨hold, fun e => hg ((r5.blk old id).mp e)⟩, fun u hus x h1 h2 => ?_, fun hsq _ a' c i j h1 => ?_, fun _ hsq => by rw [← r1.seq hsq]; exact nb.clean hsq, fun _ => n5.canary,
          fun _ _ _ _ _ _ h1 => (not_small_has hro hi h1 hO).elim, fun e => absurd e hne, fun _ hz u hus x hx hy => n5.rest hz x (by have := hus.uniq hro hi (Or.inr ⟨guard, hO⟩); omega) hy,
          fun _ _ _ _ _ _ h1 => (not_small_has hro hi h1 hO).elim⟩
        · refine ((a3.trans a4).trans r5).mono (fun q h => ?_) (fun _ _ => by simp) (by simp [Prod.le_def])
          rcases h with ((h | h) | h) | h
          · exact Or.inr h
          · exact Or.inl h
          · exact Or.inr h
          · exact h.elim
        · have := hus.uniq hro hi (Or.inr ⟨guard, hO⟩)
          exact n5.mem x (by omega)
        · exact (not_small_has hro hi h1 hO).elim
      refine WP.andThen (WP.sysRemap hro hF hi3 mine3 has3 p1 p5 (fun pg hx => h3.held.own pg (inPages_body p1 p2 (by omega) hx)) ?_ ?_)
      · -- mremap failed
        intro w4 r4
        rw [if_pos rfl]
        have hi4 := r4.inv hi3
        have kb4 := r4.keep hi3 mine3.blk
        have mine4 := mine3.keep hro hi3 hi4 kb4
        have H4 := h3.held.rely hi3 r4
        have user4 : ∀ x, inRange new (min size oldSize) x → UserByte ro w4 new x := fun x hx =>
          (kb4.user (user3 x (by unfold inRange at *; omega))).1
        refine WP.andThen (WP.memCopy hro hi4 mine4.blk user4 (fun _ x hx => Or.inr ?_) ?_ fun w5 r5 => ?_)
        · have hx' : inPages old oldSize (x / PAGE) := by unfold inPages; unfold inRange at hx; omega
          rw [H4.own _ (inPages_body p1 p2 (by omega) hx')]; simp
        · intro ch hacc
          have : w4.σ.vm.accessible old (min size oldSize) = true := by
            refine Vm.accessible_of_pages fun x hx => H4.rw _ ?_
            unfold inPages; unfold inRange at hx; omega
          rw [this] at hacc; exact absurd hacc (by simp)
        · have st := copy_step (b := old) user4
          have H5 := (H4.sameP (st.sameP hro hi4)).rely (st.ginv hro hi4) r5
          have a5 : At m ro t (· = new) noFree 0 w3 (w4.setMem (w4.σ.vm.copy new old (min size oldSize))) :=
            ((Idle.ofRely hi3 r4).trans (st.at hro hi4 mine4.blk)).mono (fun _ h => h.elim False.elim id) (fun _ _ => Nat.le_refl _) (by simp)
          have n5' : NewHas ro t new old size (min size oldSize) w (w4.setMem (w4.σ.vm.copy new old (min size oldSize))) := by
            refine ⟨⟨mine4.blk, mine4.eff⟩, (show SizeKind ro w4 new size from kind3.keep kb4), fun x hx => user4 _ (by unfold inRange; omega), fun x hx => ?_,
              Has.notBad hro (st.ginv hro hi4) (s := size) (g := g3) (kb4.large _ _ has3).1, fun _ x hx hy => ?_⟩
            rotate_right
            · show (if inRange new _ (new + x) then _ else _) = _
              rw [if_neg (by unfold inRange; omega)]
              have hy' := UserByte.back hro hi4 kind3 kb4 hy
              exact (kb4.user hy').2.trans (zero3 _ hy')
            show (if inRange new _ (new + x) then _ else _) = _
            rw [if_pos (by unfold inRange; omega), show old + (new + x - new) = old + x by omega]
            rw [(r4.sameP hi3).mem _ (h3.held.own _ (inPages_body p1 p2 (by omega) (by unfold inPages; omega)))]
            exact hmem3 x (by omega)
          have n5 := n5'.keep hro a5.inv (r5.inv a5.inv) (r5.keep a5.inv n5'.mine.blk)
          have a5 := a5.rely r5
          refine WP.andThen ((HeldRegion.dealloc hro hF a5.inv H5).mono fun _ tl6 w6 => ?_)
          rintro ⟨i6, hl, _, _⟩
          refine WP.andThen (WP.sealM i6.inv fun w7 r7 => WP.pure ⟨rfl, fin w5 n5 (fun e => h3.blk ((a5.blk old hneA).mp e)) a5 w7 (i6.rely r7)⟩)
      · -- mremap succeeded
        intro st hh w4 r4
        rw [if_neg (by simp)]
        have hiM := st.ginv hro hi3
        have gu := unmap_guar hro hiM hh.heldN
        have a4' : At m ro t (· = new) noFree 0 w3 ((w3.setMem (remapMem w3.σ.vm old oldSize new size)).unmap old oldSize) :=
          ((st.at hro hi3 mine3.blk).trans (unmap_at hro hiM hh.heldN)).mono (fun _ h => h.elim id False.elim) (fun _ _ => Nat.le_refl _) (by simp)
        have kbU : KeepB ro (w3.setMem (remapMem w3.σ.vm old oldSize new size)) ((w3.setMem (remapMem w3.σ.vm old oldSize new size)).unmap old oldSize) new :=
          (unmap_at (m := m) hro hiM hh.heldN).keep new id mine3.blk
        have nM : NewHas ro t new old size (min size oldSize) w (w3.setMem (remapMem w3.σ.vm old oldSize new size)) := by
          refine ⟨⟨mine3.blk, mine3.eff⟩, kind3, fun x hx => user3 _ (by unfold inRange; omega), fun x hx => ?_, Has.notBad hro hiM (s := size) (g := g3) has3, fun _ x hx hy => ?_⟩
          rotate_right
          · have q1 := (hi3.reg _ has3).pmod
            simp only at q1
            have hy3 : UserByte ro w3 new (new + x) := hy
            have hp2 := (hi.reg _ hO).big (by show 16384 < oldSize; omega)
            simp only at hp2
            have hin := user_in3 _ hy3
            show (if inPages new size ((new + x) / PAGE) then _ else _) = _
            rw [if_pos (by unfold inPages; unfold inRange at hin; omega), show old + (new + x - new) = old + x by omega]
            rw [if_neg (by unfold inPages; unfold inRange at hin; omega)]
          have q1 := (hi3.reg _ has3).pmod
          simp only at q1
          show (if inPages new size ((new + x) / PAGE) then _ else _) = _
          rw [if_pos (by unfold inPages; omega), show old + (new + x - new) = old + x by omega, if_pos (by unfold inPages; omega)]
          exact hmem3 x (by omega)
        have nU := nM.keep hro hiM gu.inv kbU
        have n4 := nU.keep hro gu.inv (r4.inv gu.inv) (r4.keep gu.inv nU.mine.blk)
        have a4 := a4'.rely r4
        have hi4 := a4.inv
        have hlo : Held t (inPages (old - guard) guard) w4 := by
          refine Held.rely gu.inv r4 fun pg hx => ?_
          show (if inPages old oldSize pg then _ else _) = _
          rw [if_neg (by unfold inPages at *; omega)]
          exact h3.held.own pg (by unfold RegPages pageUp; unfold inPages at *; omega)
        have hpa : pageAlign oldSize = pageUp oldSize := pageAlign_of_lt (by unfold pageUp at p6; omega)
        have hhi : Held t (inPages (old + pageAlign oldSize) guard) w4 := by
          rw [hpa]
          refine Held.rely gu.inv r4 fun pg hx => ?_
          show (if inPages old oldSize pg then _ else _) = _
          rw [if_neg (by unfold pageUp at hx; unfold inPages at *; omega)]
          exact h3.held.own pg (by unfold RegPages; unfold pageUp at *; unfold inPages at *; omega)
        have last : ∀ w5 tl5, Idle m ro t w4 w5 → Held t (inPages (old + pageAlign oldSize) guard) w5 →
            WP m ro t F (sysUnmap (old + pageAlign oldSize) guard) (fun _ _ w6 => Idle m ro t w4 w6) tl5 w5 := by
          intro w5 tl5 i5 h5
          refine (sysUnmap_wp hro hF i5.inv ?_ (by omega) h5.heldN).mono fun _ tl6 w6 h => i5.trans0 h.1
          rw [hpa]; unfold pageUp; omega
        refine WP.andThen (WP.sysUnmap hro hF hi4 (by omega) (by omega) hlo.heldN (fun _ w5 r5 => ?_) (fun w5 r5 => ?_))
        · refine WP.andThen ((last w5 _ (Idle.ofRely hi4 r5) (hhi.rely hi4 r5)).mono fun _ tl6 w6 i6 => ?_)
          exact WP.andThen (WP.sealM i6.inv fun w7 r7 => WP.pure ⟨rfl, fin w4 n4 (fun e => h3.blk ((a4.blk old hneA).mp e)) a4 w7 (i6.rely r7)⟩)
        · have gu5 := unmap_guar hro hi4 hlo.heldN
          refine WP.andThen ((last w5 _ ((unmap_at hro hi4 hlo.heldN).rely r5) (Held.rely gu5.inv r5 fun pg hx => ?_)).mono fun _ tl6 w6 i6 => ?_)
          · show (if inPages (old - guard) guard pg then _ else _) = _
            rw [if_neg (by rw [hpa] at hx; unfold pageUp at hx; unfold inPages at *; omega)]
            exact hhi pg hx
          · exact WP.andThen (WP.sealM i6.inv fun w7 r7 => WP.pure ⟨rfl, fin w4 n4 (fun e => h3.blk ((a4.blk old hneA).mp e)) a4 w7 (i6.rely r7)⟩)

theorem Rely.comp {w w1 w2 : World} (r1 : Rely m ro t w w1) (r2 : Rely m ro t w1 w2) : Rely m ro t w w2 := by
  cases m with
  | seq => exact Eq.trans (show w2 = w1 from r2) r1
  | conc => exact Trans.trans r1 r2

theorem has_back (hro : RoOk ro) {p s g : Nat} {w w1 : World} (hi : GInv ro w) (r : Rely m ro t w w1) (hb : w.G.blk p = .thr t)
    (h1 : w1.σ.rt.Has ⟨p, s, g⟩) : w.σ.rt.Has ⟨p, s, g⟩ := by
  have hk := r.keep hi hb
  rcases (hi.blk p).mp (by rw [hb]; simp) with ⟨a', c', i', k', h⟩ | ⟨s', g', h⟩
  · exact (not_small_has hro (r.inv hi) (hk.small _ _ _ _ h).1 h1).elim
  · have := (r.inv hi).has_unique h1 (hk.large s' g' h).1 rfl
    rw [this]; exact h

theorem classSize_inj {g : Cfg} {c c' : Nat} (hc : c < nClasses g) (hc' : c' < nClasses g) (h : g.classSize c = g.classSize c') : c = c' := by
  revert hc hc' h
  unfold nClasses Cfg.classSize sizeClasses
  cases g.extended
  · simp only [Bool.false_eq_true, if_false]
    intro hc hc' h
    have : ∀ c : Nat, c < 37 → ∀ c' : Nat, c' < 37 → sizeClassesBase.getD c 0 = sizeClassesBase.getD c' 0 → c = c' := by decide
    exact this c hc c' hc' h
  · simp only [if_true]
    intro hc hc' h
    have : ∀ c : Nat, c < 49 → ∀ c' : Nat, c' < 49 → (sizeClassesBase ++ sizeClassesExt).getD c 0 = (sizeClassesBase ++ sizeClassesExt).getD c' 0 → c = c' := by decide +kernel
    exact this c hc c' hc' h

/-- The block is left as it is. -/
theorem Realloced.same_block (hro : RoOk ro) {old size N : Nat} {w w' : World} (hi : GInv ro w) (hm : Mine t old w) (i : Idle m ro t w w')
    (hk : SizeKind ro w old size ∨ ∃ g, w.σ.rt.Has ⟨old, size, g⟩) : Realloced m ro t old size N w old w' := by
  have kb := i.keep old id hm.blk
  refine ⟨hm, i.mono (fun _ h => h.elim) (fun _ _ => Nat.zero_le _) (by exact Prod.le_def.mpr ⟨Nat.zero_le _, Nat.zero_le _⟩), hm.keep hro hi i.inv kb, ?_, fun h => absurd rfl h,
    fun u hu x _ hx => (kb.user (hu.user hm (by unfold inRange; omega))).2, fun _ h => absurd rfl h, fun h => absurd rfl h, fun h => absurd rfl h, fun h => absurd rfl h,
    fun _ u v hu hv => le_of_eq (hv.uniq hro i.inv (kb.usable hu)), fun h => absurd rfl h, fun h => absurd rfl h⟩
  exact hk.imp (fun h => h.keep kb) (fun ⟨g, h⟩ => ⟨rfl, g, h, (kb.large _ _ h).1⟩)

/-- h_malloc.c:1530-1628. -/
theorem reallocLarge_wp {a old size : Nat} {tl : Tl} {w : World} (hro : RoOk ro) (hF : FSys F) (hD : FDirty ro F) (hi : GInv ro w)
    (ha : a < ro.g.nArena) (hs : size < W64) (hp : FreeArg m t old w) (hin : ro.inSlab old = false)
    (hbig : ro.g.maxSlab < size → getLargeSizeClass ro.g size = size ∧ size % PAGE = 0)
    (hA : FFree ro t old none none w F) (hS : w.G.blk old = .nobody → ∀ ch w2, F .segv ch w2)
    (hU : ∀ s g, Mine t old w → w.σ.rt.Has ⟨old, s, g⟩ → s ≤ ro.g.maxSlab → ∀ why ch w2, F (.ub why) ch w2) :
    WP m ro t F (reallocLarge ro a old size) (fun r tl' w' => tl'.unsealed = false ∧
      match r with
      | none => Denied m ro t a size w tl'.errno w'
      | some q => Realloced m ro t old size (ro.g.payload size) w q w') tl w := by
  unfold reallocLarge
  refine WP.andThen (WP.unseal hi fun w1 r1 => ?_)
  have hi1 := r1.inv hi
  have hp1 : FreeArg m t old w1 := hp.idle hro hi r1
  refine WP.andThen ((findRegion_wp hro hi1 (fun _ => rfl) hp1 hin ?_).mono fun r tl2 w2 => ?_)
  · intro ch hb
    refine hA.nobody ?_ _ _ _
    rcases hp with h | ⟨_, h⟩
    · rw [(r1.blk hi old).mpr h.blk] at hb; exact absurd hb (by simp)
    · exact h
  · obtain ⟨oldSize, guard⟩ := r
    rintro ⟨rfl, r2, hm1, hh1⟩
    simp only at hh1
    have hm := hp.mine_of_rely r1 hm1
    have hh := has_back hro hi r1 hm.blk hh1
    have r12 := Rely.comp r1 r2
    have kb2 := r12.keep hi hm.blk
    have hi2 := r12.inv hi
    have hpay : ro.g.maxSlab < size → ro.g.payload size = size := fun h => by unfold Cfg.payload; rw [if_neg (by omega)]
    simp only
    by_cases c1 : oldSize = size
    · rw [if_pos c1]
      subst c1
      exact WP.andThen (WP.sealM hi2 fun w3 r3 => WP.pure ⟨rfl, Realloced.same_block hro hi hm ((Idle.ofRely hi r12).rely r3) (Or.inr ⟨guard, hh⟩)⟩)
    rw [if_neg c1]
    by_cases c2 : ro.g.maxSlab < size ∧ size < oldSize
    · rw [if_pos c2]
      have hms := maxSlab_cases ro.g
      have hm2 := hm.keep hro hi hi2 kb2
      have C : CanShrink w2 t size ⟨old, oldSize, guard⟩ :=
        ⟨(kb2.large _ _ hh).1, hm2.eff, hm2.blk, by omega, c2.2, (hbig c2.1).2, (hi.reg _ hh).big (by show 16384 < oldSize; omega)⟩
      refine (reallocShrink_wp hro hF hi2 (fun _ => rfl) C).mono fun r tl3 w3 => ?_
      rintro ⟨h1, h2⟩
      refine ⟨h1, ?_⟩
      cases r with
      | none => exact ⟨Idle.pre hi r12 h2.1, Or.inl h2.2, fun _ _ h => absurd h (by omega)⟩
      | some q =>
        obtain ⟨rfl, S⟩ := h2
        simp only
        refine ⟨hm, (Idle.pre hi r12 S.at_).mono (fun _ h => Or.inl h) (fun _ _ => Nat.zero_le _) (by rw [hin]; exact le_refl _), S.mine, Or.inl (Or.inr ⟨c2.1, guard, by rw [(hbig c2.1).1]; exact S.has⟩),
          fun h => absurd rfl h, fun u hu x h3 h4 => ?_, fun _ h => absurd rfl h, fun h => absurd rfl h, fun h => absurd rfl h, fun h => absurd rfl h,
          fun _ u v hu hv => ?_, fun h => absurd rfl h, fun h => absurd rfl h⟩
        rotate_right
        · rw [hu.uniq hro hi (Or.inr ⟨guard, hh⟩), hv.uniq hro S.at_.inv (Or.inr ⟨guard, S.has⟩)]
          exact c2.2.le
        rw [hpay c2.1] at h3
        rw [S.mem _ (by unfold inRange; omega)]
        exact (kb2.user (hu.user hm (by unfold inRange; omega))).2
    rw [if_neg c2]
    by_cases c3 : ro.g.maxSlab < size ∧ MREMAP_MOVE_THRESHOLD ≤ min size oldSize
    · rw [if_pos c3]
      refine (reallocMove_wp hro hF hi r12 (fun _ => rfl) hs hm hh c3.1 (hbig c3.1).1 (by have := c3.2; omega)).mono fun r tl3 w3 => ?_
      rintro ⟨h1, h2⟩
      refine ⟨h1, ?_⟩
      cases r with
      | none => exact ⟨h2.1, h2.2.imp id fun h => ⟨c3.1, h⟩, fun _ _ h => absurd h (by omega)⟩
      | some q => rw [hpay c3.1]; exact h2
    rw [if_neg c3]
    exact reallocCopy_wp hro hF hD hi r12 (fun _ => rfl) ha hs hp (Or.inr ⟨hin, hm, guard, hh⟩) hA hS fun ⟨g, h⟩ h1 => hU oldSize g hm h h1

/-- h_malloc.c:1519-1647. -/
theorem reallocSized_wp {a old size : Nat} {tl : Tl} {w : World} (hro : RoOk ro) (hF : FSys F) (hD : FDirty ro F) (hi : GInv ro w)
    (htl : tl.unsealed = false) (ha : a < ro.g.nArena) (hs : size < W64) (hp : FreeArg m t old w)
    (hbig : ro.g.maxSlab < size → getLargeSizeClass ro.g size = size ∧ size % PAGE = 0)
    (hA : FFree ro t old none none w F) (hS : w.G.blk old = .nobody → ∀ ch w2, F .segv ch w2)
    (hU : ∀ s g, Mine t old w → w.σ.rt.Has ⟨old, s, g⟩ → s ≤ ro.g.maxSlab → ∀ why ch w2, F (.ub why) ch w2) :
    WP m ro t F (reallocSized ro a old size) (fun r tl' w' => tl'.unsealed = false ∧
      match r with
      | none => Denied m ro t a size w tl'.errno w'
      | some q => Realloced m ro t old size (ro.g.payload size) w q w' ∨
          (w.G.blk old = .nobody ∧ (ro.inSlab old = true ∧ size ≤ ro.g.maxSlab ∧ (getSizeInfo size).size = ro.slabUsableSize old) ∧ q = old ∧ Idle m ro t w w')) tl w := by
  unfold reallocSized
  cases hin : ro.inSlab old with
  | false =>
    rw [if_neg (by simp)]
    refine (reallocLarge_wp hro hF hD hi ha hs hp hin hbig hA hS hU).mono fun r tl3 w3 => ?_
    rintro ⟨h1, h2⟩
    refine ⟨h1, ?_⟩
    cases r with
    | none => exact h2
    | some q => exact Or.inl h2
  | true =>
    rw [if_pos rfl]
    simp only
    by_cases c : size ≤ ro.g.maxSlab ∧ (getSizeInfo size).size = ro.slabUsableSize old
    · rw [if_pos c]
      refine WP.pure ⟨htl, ?_⟩
      simp only
      rcases hp with hm | ⟨_, hb⟩
      · refine Or.inl (Realloced.same_block hro hi hm (At.refl hi) (Or.inl (Or.inl ⟨c.1, ?_⟩)))
        rcases (hi.blk old).mp (by rw [hm.blk]; simp) with ⟨a', c', i, j, h1⟩ | ⟨s', g, h1⟩
        · have h2 := c.2
          unfold Ro.slabUsableSize at h2
          rw [h1.cls hro hi, ← classSize_clsOf c.1] at h2
          have h3 := classSize_inj (clsOf_lt c.1) h1.2.1 h2
          exact ⟨a', i, j, by rw [h3]; exact h1⟩
        · rw [has_not_inSlab hro hi h1] at hin; exact absurd hin (by simp)
      · exact Or.inr ⟨hb, ⟨trivial, c.1, c.2⟩, trivial, At.refl hi⟩
    · rw [if_neg c]
      refine WP.andThen (WP.unseal hi fun w1 r1 => ?_)
      refine (reallocCopy_wp hro hF hD hi r1 (fun _ => rfl) ha hs hp (Or.inl ⟨hin, rfl, fun h e => c ⟨h, e⟩⟩) hA hS fun ⟨g, h⟩ _ => ?_).mono fun r tl3 w3 => ?_
      · rw [has_not_inSlab hro hi h] at hin; exact absurd hin (by simp)
      · rintro ⟨h1, h2⟩
        refine ⟨h1, ?_⟩
        cases r with
        | none => exact h2
        | some q => exact Or.inl h2

/-- What `realloc(old, n)` returned. -/
def ReallocPost (m : Mode) (ro : Ro) (t a old n : Nat) (w : World) (r : Option Nat) (e : Errno) (w' : World) : Prop :=
  match r with
  | none => Denied m ro t a (adjustSizeForCanary ro.g n) w e w'
  | some q =>
    (old = 0 ∧ Got m ro t a (adjustSizeForCanary ro.g n) w q w') ∨
    (old ≠ 0 ∧ ∃ size, (size = adjustSizeForCanary ro.g n ∧ size ≤ ro.g.maxSlab ∨
        ro.g.maxSlab < adjustSizeForCanary ro.g n ∧ size = getLargeSizeClass ro.g (adjustSizeForCanary ro.g n) ∧ ro.g.maxSlab < size ∧ getLargeSizeClass ro.g size = size) ∧
      n ≤ ro.g.payload size ∧
      (Realloced m ro t old size (ro.g.payload size) w q w' ∨ (w.G.blk old = .nobody ∧ (ro.inSlab old = true ∧ size ≤ ro.g.maxSlab ∧ (getSizeInfo size).size = ro.slabUsableSize old) ∧ q = old ∧ Idle m ro t w w')))

/-- h_malloc.c:1505-1647. -/
theorem hRealloc_wp {a old n : Nat} {tl : Tl} {w : World} (hro : RoOk ro) (hF : FSys F) (hD : FDirty ro F) (hi : GInv ro w)
    (htl : tl.unsealed = false) (ha : a < ro.g.nArena) (hn : n < W64) (hp : old ≠ 0 → FreeArg m t old w)
    (hA : old ≠ 0 → FFree ro t old none none w F) (hS : old ≠ 0 → w.G.blk old = .nobody → ∀ ch w2, F .segv ch w2)
    (hU : ∀ s g, Mine t old w → w.σ.rt.Has ⟨old, s, g⟩ → s ≤ ro.g.maxSlab → ∀ why ch w2, F (.ub why) ch w2) :
    WP m ro t F (hRealloc ro a old n) (fun r tl' w' => tl'.unsealed = false ∧ ReallocPost m ro t a old n w r tl'.errno w') tl w := by
  have hadj := adjust_lt (g := ro.g) hn
  have hms : 16384 ≤ ro.g.maxSlab := by rcases maxSlab_cases ro.g with ⟨_, e⟩ | ⟨_, e⟩ <;> omega
  unfold hRealloc
  simp only
  by_cases h0 : old = 0
  · rw [if_pos h0]
    refine (alloc_wp hro hF hD hi ha hadj).mono fun r tl2 w2 => ?_
    rintro ⟨h1, h2⟩
    refine ⟨h1, ?_⟩
    cases r with
    | none => exact h2
    | some q => exact Or.inl ⟨h0, h2⟩
  rw [if_neg h0]
  by_cases hb : ro.g.maxSlab < adjustSizeForCanary ro.g n
  · rw [if_pos hb]
    by_cases hz : getLargeSizeClass ro.g (adjustSizeForCanary ro.g n) = 0
    · rw [if_pos hz]
      exact WP.andThen (WP.setErrno hi fun w1 r1 => WP.pure ⟨htl, Idle.ofRely hi r1, Or.inl rfl, fun _ _ h => absurd h (by omega)⟩)
    · rw [if_neg hz]
      obtain ⟨k1, k2, k3⟩ := getLargeSizeClass_ok ro.g hadj hz
      have hid := c15_idempotent ro.g _ (by omega) hadj hz
      refine (reallocSized_wp hro hF hD hi htl ha k2 (hp h0) (fun _ => ⟨hid, k3 (by omega)⟩) (hA h0) (hS h0) hU).mono fun r tl2 w2 => ?_
      rintro ⟨h1, h2⟩
      refine ⟨h1, ?_⟩
      cases r with
      | none => exact ⟨h2.1, h2.2.1.imp id fun h => ⟨hb, h.2⟩, fun _ _ h => absurd h (by omega)⟩
      | some q =>
        refine Or.inr ⟨h0, _, Or.inr ⟨hb, rfl, by omega, hid⟩, ?_, h2⟩
        have := le_payload ro.g n
        exact this.trans (payload_mono k1)
  · rw [if_neg hb]
    refine (reallocSized_wp hro hF hD hi htl ha hadj (hp h0) (fun h => absurd h hb) (hA h0) (hS h0) hU).mono fun r tl2 w2 => ?_
    rintro ⟨h1, h2⟩
    refine ⟨h1, ?_⟩
    cases r with
    | none => exact h2
    | some q => exact Or.inr ⟨h0, _, Or.inl ⟨rfl, by omega⟩, le_payload ro.g n, h2⟩

/-- What is behind the contents of the old block is zero. -/
theorem ReallocPost.zero (hro : RoOk ro) {a old n q : Nat} {e : Errno} {w w' : World} (hn : n < W64) (h : ReallocPost m ro t a old n w (some q) e w')
    (hz : Zeros ro (adjustSizeForCanary ro.g n) w) {v x : Nat} (hv : UsableIs ro w' q v) (hx : x < v)
    (hk : old = 0 ∨ ∃ u, Mine t old w ∧ UsableIs ro w old u ∧ (u ≤ x ∨ q ≠ old ∧ adjustSizeForCanary ro.g n ≤ ro.g.maxSlab ∧ n ≤ x)) :
    w'.σ.vm.mem (q + x) = 0#8 := by
  rcases h with ⟨h0, h⟩ | ⟨h0, size, hs, _, h⟩
  · exact h.zero_user hro hz (hv.user (Got.newBlk hro (adjust_lt hn) h).mine (by unfold inRange; omega))
  obtain ⟨u, hm, hu, hx'⟩ := hk.resolve_left h0
  rcases h with h | ⟨h, _⟩
  · have hz' : Zeros ro size w := by
      rcases hs with ⟨rfl, _⟩ | ⟨_, _, h2, _⟩
      · exact hz
      · exact Or.inl h2
    by_cases hq : q = old
    · rcases hx' with hx' | ⟨hx', _⟩
      · have := h.inPlace hq u v hu (by rw [← hq]; exact hv)
        omega
      · exact absurd hq hx'
    · refine h.rest hq hz' u hu x ?_ (hv.user h.mine (by unfold inRange; omega))
      rcases hx' with hx' | ⟨_, h2, h3⟩
      · omega
      · rcases hs with ⟨rfl, _⟩ | ⟨hs, _⟩
        · by_cases e0 : adjustSizeForCanary ro.g n = 0
          · rw [e0]; unfold Cfg.payload; simp
          · rw [(payload_small e0 h2).1]; omega
        · omega
  · rw [hm.blk] at h; exact absurd h (by simp)

end HM
