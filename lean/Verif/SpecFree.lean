import Verif.SpecQuar
/-
Deallocating and shrinking large allocations (h_malloc.c:1378-1399, 1552-1571).
-/
namespace HM

variable {ro : Ro} {m : Mode} {t : Nat} {F : Bad → Choice → World → Prop}

/-! ### Deallocation -/

/-- `t` has freed its region `p`. -/
structure FreedLarge (m : Mode) (ro : Ro) (t p : Nat) (expected : Option Nat) (w w' : World) : Prop where
  mine : Mine t p w
  at_ : At m ro t (· = p) noFree (1, 0) w w'
  blk : w'.G.blk p ≠ .thr t
  has : ∃ size guard, w.σ.rt.Has ⟨p, size, guard⟩ ∧ (∀ n, expected = some n → size = getLargeSizeClass ro.g n) ∧
    (m = .seq → ro.g.regionQuarantine = true → size < ro.g.regionQSkip →
      ∀ pg, inPages (p - guard) (size + guard * 2) pg → ro.g.regionDelay ≤ pageDelay ro.g w' pg) ∧
    (ro.g.regionQuarantine = true → size < ro.g.regionQSkip →
      ∀ pg, inPages (p - guard) (size + guard * 2) pg → ro.g.regionDelay + w.G.pushes + 1 ≤ pageDelay ro.g w' pg + w'.G.pushes) ∧
    (m = .seq → w.G.calm = true → ∀ pg, inPages p size pg → w'.σ.vm.prot pg ≠ .rw)

theorem deallocateLarge_wp {p : Nat} {expected : Option Nat} {tl : Tl} {w : World} (hro : RoOk ro) (hF : FSys F) (hi : GInv ro w)
    (hp : FreeArg m t p w) (hs : ro.inSlab p = false) (hN : ∀ ch w1, Rely m ro t w w1 → w.G.blk p = .nobody → F (.fatal "invalid free") ch w1)
    (hE : ∀ ch w1 s n g, Rely m ro t w w1 → Mine t p w → expected = some n → w.σ.rt.Has ⟨p, s, g⟩ → s ≠ getLargeSizeClass ro.g n →
      F (.fatal "sized deallocation mismatch (large)") ch w1) :
    WP m ro t F (deallocateLarge ro p expected) (fun _ tl' w' => tl'.unsealed = true ∧ FreedLarge m ro t p expected w w') tl w := by
  unfold deallocateLarge
  refine WP.andThen (WP.unseal hi fun w1 hr => ?_)
  have hi1 := hr.inv hi
  have hk : Mine t p w1 → Mine t p w := by
    intro h1
    rcases hp with h | ⟨h2, h3⟩
    · exact h
    · rw [hr.seq h2] at h1; exact h1
  have back : Mine t p w1 → ∀ s g, w1.σ.rt.Has ⟨p, s, g⟩ → w.σ.rt.Has ⟨p, s, g⟩ := by
    intro h1 s g h2
    have hb := (hk h1).blk
    obtain ⟨s', g', h3⟩ := Mine.has hro hi (by rw [hb]; simp) hs
    have h4 := ((hr.keep hi hb).large s' g' h3).1
    have := hi1.has_unique h2 h4 rfl
    rw [this]; exact h3
  refine WP.andThen ((removeRegion_wp hro hi1 (fun _ => rfl) (hp.idle hro hi hr) hs ?_ ?_).mono ?_)
  · intro ch hb
    refine hN ch w1 hr ?_
    rcases hp with h | ⟨h2, h3⟩
    · rw [(hr.keep hi h.blk).blk, h.blk] at hb; exact absurd hb (by simp)
    · exact h3
  · intro ch s n g h1 h2 h3
    have hm : Mine t p w1 := by
      rcases hp.idle hro hi hr with h | ⟨_, h⟩
      · exact h
      · exact absurd h ((hi1.blk p).mpr (Or.inr ⟨s, g, h2⟩))
    exact hE ch w1 s n g hr (hk hm) h1 (back hm s g h2) h3
  · rintro ⟨size, guard⟩ tl2 w2 ⟨rfl, R, hx⟩
    have Hok := R.held.ok
    have e1 := Hok.pmod; have e2 := Hok.gmod; have e3 := Hok.lo; have e4 := Hok.size
    simp only at e1 e2 e3 e4
    have hgd : ∀ pg, inPages (p - guard) (size + guard * 2) pg → ¬ inPages p size pg → w2.σ.vm.prot pg ≠ .rw := fun pg k1 k2 => by
      have k1 := (inPages_round' (by omega) e2).mp k1
      have hlo := R.held.lo pg
      have hhi := R.held.hi pg
      by_cases k : inPages (p - guard) guard pg
      · rw [hlo k]; simp
      · rw [hhi (by unfold inPages pageUp at *; omega)]; simp
    refine (quarantineDeallocatePages_wp hro hF R.at_.inv (fun _ => rfl) e1 e2 e3 e4 R.held.pages hgd).mono fun _ tl3 w3 h => ?_
    obtain ⟨h1, h2⟩ := h
    refine ⟨h1, hk R.mine, ?_, ?_, size, guard, back R.mine _ _ R.has, hx, h2.delay, fun k1 k2 pg k3 => ?_, fun hm hc => h2.gone hm ?_⟩
    · exact (((Idle.ofRely hi hr).trans R.at_).trans h2.at_).mono (fun q h => by simpa [noBlock] using h)
        (fun _ _ => Nat.le_refl _) (by simp)
    · intro e; exact R.blk ((h2.at_.blk p id).mp e)
    · have := h2.wait k1 k2 pg k3
      have := (hr.delay hi).pushes
      have := R.at_.later.pushes
      omega
    · rw [R.at_.calm, hr.calm hi]; exact hc

/-! ### The table after a change of size -/

theorem TabInv.congr {hash : Nat → Nat} {a b : RTab} {T : Nat} (h : TabInv hash a T) (e : ∀ x, (b x).p = (a x).p) : TabInv hash b T :=
  ⟨fun i j hi hj h1 h2 => h.distinct i j hi hj (by rw [← e]; exact h1) (by rw [← e, ← e]; exact h2),
   fun i hi h1 x hx h2 => by rw [e] at *; exact h.probe i hi h1 x hx h2⟩

theorem RegTable.Inv.resize {rt : RegTable} (h : rt.Inv hashPage) {i : Nat} {r : RegionMeta} (hi : i < rt.total) (hr : rt.tab i = r)
    (h0 : r.p ≠ 0) (n : Nat) : (rt.setTab (rt.tab.set i { r with size := n })).Inv hashPage ∧
      Resized rt (rt.setTab (rt.tab.set i { r with size := n })) r n := by
  have ep : ∀ x, (rt.tab.set i { r with size := n } x).p = (rt.tab x).p := by
    intro x
    by_cases e : x = i
    · rw [e, RTab.set_same, hr]
    · rw [RTab.set_ne _ _ e]
  have et := rt.setTab_tab (rt.tab.set i { r with size := n })
  refine ⟨⟨h.pow, ?_, ?_, h.room, fun x => ?_, fun x hx => ?_⟩, fun q => ?_⟩
  · rw [et]; exact h.tab.congr ep
  · rw [et]; show rt.free = nulls _ rt.total
    rw [h.free]; unfold nulls; simp only [ep]
  · have : ((rt.setTab (rt.tab.set i { r with size := n })).tabs (!rt.cur)) = rt.tabs (!rt.cur) := by simp [RegTable.setTab]
    show ((rt.setTab (rt.tab.set i { r with size := n })).tabs (!rt.cur) x).p = 0
    rw [this]; exact h.spare x
  · rw [et, ep]; exact h.outside x hx
  · show HM.Has (rt.setTab _).tab rt.total q ↔ _
    rw [et]
    constructor
    · rintro ⟨h1, x, hx, rfl⟩
      by_cases e : x = i
      · right; rw [e, RTab.set_same]
      · left
        rw [RTab.set_ne _ _ e] at *
        refine ⟨⟨h1, x, hx, rfl⟩, fun e2 => e (h.tab.distinct x i hx hi h1 (by rw [e2, hr]))⟩
    · rintro (⟨⟨h1, x, hx, rfl⟩, h2⟩ | rfl)
      · refine ⟨h1, x, hx, ?_⟩
        rw [RTab.set_ne]
        rintro rfl; exact h2 hr
      · exact ⟨h0, i, hi, RTab.set_same _ _ _⟩

/-! ### Shrinking in place -/

/-- Region `p` has been shrunk to `n`. -/
structure Shrunk (m : Mode) (ro : Ro) (t p n guard : Nat) (w w' : World) : Prop where
  at_ : At m ro t (· = p) noFree (1, 0) w w'
  mine : Mine t p w'
  has : w'.σ.rt.Has ⟨p, n, guard⟩
  mem : ∀ x, inRange p n x → w'.σ.vm.mem x = w.σ.vm.mem x

/-- h_malloc.c:1552-1571. -/
theorem reallocShrink_wp {p s guard n : Nat} {tl : Tl} {w : World} (hro : RoOk ro) (hF : FSys F) (hi : GInv ro w)
    (hu : Unsealed ro tl) (C : CanShrink w t n ⟨p, s, guard⟩) :
    WP m ro t F (reallocShrink ro p s guard n) (fun r tl' w' => tl'.unsealed = false ∧
      match r with
      | none => Idle m ro t w w' ∧ tl'.errno = ENOMEM
      | some q => q = p ∧ Shrunk m ro t p n guard w w') tl w := by
  have R := hi.reg _ C.has
  have e1 := R.pmod; have e2 := R.gmod; have e3 := R.gpos; have e4 := R.lo; have e5 := R.size
  have c1 := C.pos; have c2 := C.lt; have c3 := C.nmod; have c4 := C.smod
  simp only at e1 e2 e3 e4 e5 c1 c2 c3 c4
  unfold reallocShrink
  have hreg : ∀ pg, inPages (p + n) guard pg → w.G.own pg ≠ .slab := by
    intro pg hx e
    have := (C.own hi pg).mpr (by have := pageUp_of_mod c4; simp only [RegPages, inPages] at hx ⊢; rw [this]; omega)
    rw [this] at e; cases e
  refine WP.andThen (WP.sysCall (fun ch N ν hN => memoryMapFixed_patch (hN.prot hreg) (hN.mem hreg)) fun ch _ => ?_)
  unfold memoryMapFixed
  rw [if_neg (by omega)]
  cases hs : ch.sys 0 with
  | other => exact hF _ _ _ (Or.inl ⟨0, hs⟩)
  | enomem =>
    refine ⟨w.G, (Trans.refl hi).quiet, fun w1 hr e he _ => ?_⟩
    rw [if_pos rfl, he rfl]
    exact WP.andThen (WP.sealM (hr.inv hi) fun w2 hr2 => WP.pure ⟨rfl, (Idle.ofRely hi hr).rely hr2, rfl⟩)
  | ok =>
    have sv : ShrinkVm ⟨p, s, guard⟩ n w.σ.vm ((w.σ.vm.setProt (p + n) guard .none).zeroPages (p + n) guard) := by
      refine ⟨fun pg => rfl, fun x hx => ?_⟩
      show (if inPages (p + n) guard (x / PAGE) then _ else _) = _
      rw [if_neg hx]; rfl
    have g := shrinkReg_trans hro hi C sv
    have hkeep : ∀ q, ¬ q = p → KeepB ro w (w.shrinkReg t ⟨p, s, guard⟩ n ((w.σ.vm.setProt (p + n) guard .none).zeroPages (p + n) guard)) q :=
      fun q hq => shrinkReg_keep hro hi C sv hq
    have hheld : ∀ pg, inPages (p + n + guard) (s - n) pg → (w.shrinkReg t ⟨p, s, guard⟩ n ((w.σ.vm.setProt (p + n) guard .none).zeroPages (p + n) guard)).G.own pg = .held t :=
      fun pg hx => shrinkReg_held (r := ⟨p, s, guard⟩) hi C hx
    have hmem : ∀ x, inRange p n x → (w.shrinkReg t ⟨p, s, guard⟩ n ((w.σ.vm.setProt (p + n) guard .none).zeroPages (p + n) guard)).σ.vm.mem x = w.σ.vm.mem x :=
      fun x hx => shrinkReg_block hi C sv hx
    have hb1 : (w.shrinkReg t ⟨p, s, guard⟩ n ((w.σ.vm.setProt (p + n) guard .none).zeroPages (p + n) guard)).G.blk p = .thr t := C.blk
    have hef1 : (w.shrinkReg t ⟨p, s, guard⟩ n ((w.σ.vm.setProt (p + n) guard .none).zeroPages (p + n) guard)).G.eff p = some n := by
      show (if p = p then _ else _) = _; rw [if_pos rfl]
    have hes1 := shrinkReg_eff (w := w) (t := t) (n := n) (r := ⟨p, s, guard⟩) (vm' := (w.σ.vm.setProt (p + n) guard .none).zeroPages (p + n) guard)
    have hh1 : (w.shrinkReg t ⟨p, s, guard⟩ n ((w.σ.vm.setProt (p + n) guard .none).zeroPages (p + n) guard)).σ.rt.Has ⟨p, s, guard⟩ := C.has
    have a1 : At m ro t (· = p) noFree 0 w (w.shrinkReg t ⟨p, s, guard⟩ n ((w.σ.vm.setProt (p + n) guard .none).zeroPages (p + n) guard)) :=
      At.ofGuar g hkeep (fun _ _ => Nat.le_refl _) (Nat.le_refl _) (Nat.le_refl _)
    refine ⟨_, g.quiet, fun w1 hr e _ _ => ?_⟩
    rw [if_neg (by simp)]
    change Rely m ro t (w.shrinkReg t ⟨p, s, guard⟩ n ((w.σ.vm.setProt (p + n) guard .none).zeroPages (p + n) guard)) w1 at hr
    generalize w.shrinkReg t ⟨p, s, guard⟩ n ((w.σ.vm.setProt (p + n) guard .none).zeroPages (p + n) guard) = w0 at *
    clear sv
    have hi1 := hr.inv g.inv
    have k1 := hr.keep g.inv hb1
    refine WP.andThen ((quarantineDeallocatePages_wp (tl := { tl with errno := e }) hro hF hi1 hu (by omega) (by decide) (by omega) (by omega)
      (fun pg hx => (Held.rely g.inv hr (S := inPages (p + n + guard) (s - n)) hheld) pg (by simpa using hx))
      (fun pg k1 k2 => absurd (by simpa using k1) k2)).mono fun _ tl2 w2 h => ?_)
    obtain ⟨hs2, q2⟩ := h
    have k2 := k1.trans (q2.at_.keep p id (k1.blk.trans hb1))
    have a2 : At m ro t (· = p) noFree (1, 0) w w2 := ((a1.rely hr).trans q2.at_).mono (fun q h => by simpa [noBlock] using h)
      (fun _ _ => Nat.le_refl _) (by simp)
    have hb2 : w2.G.blk p = .thr t := k2.blk.trans hb1
    obtain ⟨hh2, hef2, hm2⟩ := k2.large s guard hh1
    rw [hef1] at hef2
    rw [hes1] at hm2
    rw [pageUp_of_mod c3] at hm2
    have hi2 := q2.at_.inv
    refine WP.andThen (WP.critical (fun _ => resizeRegion_local) (fun e => hs2.trans (hu e)) fun ch2 _ => ?_)
    rcases lookupRegion_spec hi2 p with ⟨i, r, h1, h2, h3, h4, h5⟩ | ⟨h1, h2⟩
    · rw [h1]
      have er := hi2.has_unique h5 hh2 h4
      subst er
      obtain ⟨hinv, hres⟩ := hi2.rt.resize h2 h3 h5.1 n
      have g2 := resizeReg_trans (t := t) (la := if ro.g.stats then sub64 w2.σ.largeAllocated (s - n) else w2.σ.largeAllocated)
        hro hi2 h5 hef2 hb2 hinv hres (by cases ro.g.stats <;> simp)
      refine ⟨_, g2.quiet, fun w3 hr3 => ?_⟩
      have a3 : At m ro t (· = p) noFree 0 w2 _ := At.ofGuar g2 (fun q hq => resizeReg_keep hro hi2 hres hq) (fun _ _ => Nat.le_refl _)
        (Nat.le_refl _) (Nat.le_refl _)
      have hb3 : (w2.resizeReg (w2.σ.rt.setTab (w2.σ.rt.tab.set i ⟨p, n, guard⟩)) ⟨p, s, guard⟩
        (if ro.g.stats then sub64 w2.σ.largeAllocated (s - n) else w2.σ.largeAllocated)).G.blk p = .thr t := hb2
      have hef3 : (w2.resizeReg (w2.σ.rt.setTab (w2.σ.rt.tab.set i ⟨p, n, guard⟩)) ⟨p, s, guard⟩
        (if ro.g.stats then sub64 w2.σ.largeAllocated (s - n) else w2.σ.largeAllocated)).G.eff p = none := by
        show (if p = p then _ else _) = _; rw [if_pos rfl]
      have hh3 : (w2.resizeReg (w2.σ.rt.setTab (w2.σ.rt.tab.set i ⟨p, n, guard⟩)) ⟨p, s, guard⟩
        (if ro.g.stats then sub64 w2.σ.largeAllocated (s - n) else w2.σ.largeAllocated)).σ.rt.Has ⟨p, n, guard⟩ := (hres _).mpr (Or.inr rfl)
      have k3 := hr3.keep g2.inv hb3
      refine WP.andThen (WP.sealM (hr3.inv g2.inv) fun w4 hr4 => WP.pure ⟨rfl, rfl, ?_, ?_, ?_, ?_⟩)
      · exact ((a2.trans (a3.rely hr3)).rely hr4).mono (fun q h => by simpa using h) (fun _ _ => Nat.le_refl _) (by simp)
      all_goals
        have k4 := k3.trans (hr4.keep (hr3.inv g2.inv) (k3.blk.trans hb3))
        obtain ⟨j1, j2, j3⟩ := k4.large n guard hh3
      · exact ⟨k4.blk.trans hb3, j2.trans hef3⟩
      · exact j1
      · intro x hx
        have hes3 : (w2.resizeReg (w2.σ.rt.setTab (w2.σ.rt.tab.set i ⟨p, n, guard⟩)) ⟨p, s, guard⟩
          (if ro.g.stats then sub64 w2.σ.largeAllocated (s - n) else w2.σ.largeAllocated)).G.effSize ⟨p, n, guard⟩ = n := by
          unfold Gh.effSize; rw [show _ = none from hef3]; rfl
        rw [hes3, pageUp_of_mod c3] at j3
        exact ((j3 x hx).trans (hm2 x hx)).trans (hmem x hx)
    · exact absurd rfl (h2 _ hh2)

end HM
