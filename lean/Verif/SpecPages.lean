import Verif.LogicPages
/-
What the functions of pages.c do.
-/
namespace HM

variable {ro : Ro} {m : Mode} {t : Nat} {F : Bad → Choice → World → Prop}

theorem WP.andThen {α β : Type} {P : Prog α} {f : α → Prog β} {Q : β → Tl → World → Prop} {tl : Tl} {w : World}
    (h : WP m ro t F P (fun a tl w => WP m ro t F (f a) Q tl w) tl w) : WP m ro t F (P >>= f) Q tl w := WP.bind h

/-- errno is unchanged or ENOMEM, and the metadata is as accessible as before. -/
structure TlStep (tl tl' : Tl) : Prop where
  errno : tl'.errno = tl.errno ∨ tl'.errno = ENOMEM
  sealed : tl'.unsealed = tl.unsealed

theorem TlStep.refl (tl : Tl) : TlStep tl tl := ⟨Or.inl rfl, rfl⟩
theorem TlStep.enomem (tl : Tl) : TlStep tl { tl with errno := ENOMEM } := ⟨Or.inr rfl, rfl⟩
theorem TlStep.trans {a b c : Tl} (h : TlStep a b) (h' : TlStep b c) : TlStep a c :=
  ⟨h'.errno.elim (fun e => h.errno.elim (fun e' => Or.inl (e.trans e')) (fun e' => Or.inr (e.trans e'))) Or.inr, h'.sealed.trans h.sealed⟩

theorem At.trans0 {w0 w w' : World} (a : At m ro t noBlock noFree 0 w0 w)
    (b : At m ro t noBlock noFree 0 w w') : At m ro t noBlock noFree 0 w0 w' :=
  (a.trans b).mono (fun _ h => h.elim id id) (fun _ _ => Nat.le_refl _) (le_refl _)

/-- Nothing but the pages thread `t` holds has changed. -/
abbrev Idle (m : Mode) (ro : Ro) (t : Nat) := At m ro t noBlock noFree 0

theorem Idle.ofRely {w w' : World} (hi : GInv ro w) (r : Rely m ro t w w') : Idle m ro t w w' := (At.refl hi).rely r

theorem unmap_at {a n : Nat} {w : World} (hro : RoOk ro) (hi : GInv ro w) (hh : HeldN t (inPages a n) w) : Idle m ro t w (w.unmap a n) :=
  vmStep_at hro hi (unmap_step hi hh)

/-- Releasing pages, whatever the outcome. -/
theorem sysUnmap_wp {a n : Nat} {tl : Tl} {w : World} (hro : RoOk ro) (hF : FSys F) (hi : GInv ro w)
    (ha : a % PAGE = 0) (hn : 0 < n) (hh : HeldN t (inPages a n) w) :
    WP m ro t F (sysUnmap a n) (fun _ tl' w' => Idle m ro t w w' ∧ TlStep tl tl' ∧ (m = .seq → w'.σ.rt = w.σ.rt)) tl w := by
  refine WP.sysCall (fun ch N ν hN => memoryUnmap_patch (hN.prot hh.off)) fun ch hf => ?_
  unfold memoryUnmap
  rw [if_neg (by omega)]
  cases hs : ch.sys 0 with
  | other => exact hF _ _ _ (Or.inl ⟨0, hs⟩)
  | enomem =>
    refine ⟨w.G, (Trans.refl hi).quiet, fun w2 hr e he _ => ⟨Idle.ofRely hi hr, ?_, fun hm => by rw [hr.seq hm]⟩⟩
    rw [he rfl]; exact TlStep.enomem tl
  | ok =>
    refine ⟨_, (unmap_guar hro hi hh).quiet, fun w2 hr e _ he => ⟨?_, ?_, fun hm => by rw [hr.seq hm]⟩⟩
    · exact (unmap_at hro hi hh).rely hr
    · rw [he rfl rfl]; exact TlStep.refl tl

theorem sysPurge_wp {a n : Nat} {tl : Tl} {w : World} (hro : RoOk ro) (hF : FSys F) (hi : GInv ro w)
    (ha : a % PAGE = 0) (hh : Held t (inPages a n) w) :
    WP m ro t F (sysPurge a n) (fun _ tl' w' => Idle m ro t w w' ∧ TlStep tl tl' ∧ (m = .seq → w'.σ.rt = w.σ.rt) ∧ (SameP t w w' ∨ SameP t (w.purge a n) w')) tl w := by
  refine WP.sysPurge hro hF hi ha hh (fun w2 hr => ⟨Idle.ofRely hi hr, TlStep.enomem tl, fun hm => by rw [hr.seq hm], Or.inl (hr.sameP hi)⟩)
    (fun w2 hr => ⟨(vmStep_at hro hi (purge_step hi hh)).rely hr, TlStep.refl tl, fun hm => by rw [hr.seq hm]; rfl, Or.inr ?_⟩)
  exact hr.sameP (hi.vmStep hro (purge_step hi hh))

/-- pages.c:84-88. -/
theorem deallocatePages_wp {p size guard : Nat} {tl : Tl} {w : World} (hro : RoOk ro) (hF : FSys F) (hi : GInv ro w)
    (hp : p % PAGE = 0) (hg : guard % PAGE = 0) (hle : guard ≤ p) (hs : 0 < size)
    (hh : Held t (inPages (p - guard) (size + guard * 2)) w) :
    WP m ro t F (deallocatePages p size guard) (fun _ tl' w' => Idle m ro t w w' ∧ TlStep tl tl' ∧ (m = .seq → w'.σ.rt = w.σ.rt) ∧
      (m = .seq → w.G.calm = true → ∀ pg, inPages (p - guard) (size + guard * 2) pg → w'.σ.vm.prot pg = .unmapped)) tl w := by
  refine WP.andThen (WP.sysUnmap hro hF hi (by omega) (by omega) hh.heldN (fun hca w2 hr => ?_) (fun w2 hr => ?_))
  · have hi2 := hr.inv hi
    have hh2 : Held t (inPages p size) w2 := fun pg hx => hh.rely hi hr pg (by unfold inPages at *; omega)
    rw [if_pos rfl]
    refine WP.andThen ((sysPurge_wp hro hF hi2 hp hh2).mono fun _ tl' w' h => ?_)
    refine WP.pure ?_
    obtain ⟨h1, h2, h3, _⟩ := h
    exact ⟨(Idle.ofRely hi hr).trans0 h1, (TlStep.enomem tl).trans h2, fun hm => by rw [h3 hm, hr.seq hm], fun _ hc => (hca hc).elim⟩
  · rw [if_neg (by simp)]
    exact WP.pure ⟨(unmap_at hro hi hh.heldN).rely hr, TlStep.refl tl, fun hm => by rw [hr.seq hm]; rfl, fun hm _ pg hx => by rw [hr.seq hm]; exact if_pos hx⟩

/-- The pages of a region laid out at `p`, as unmapped by the code. -/
theorem HeldRegion.pages {p size guard : Nat} {w : World} (H : HeldRegion t p size guard w) :
    Held t (inPages (p - guard) (size + guard * 2)) w := by
  intro pg hx
  refine H.own pg ?_
  have h1 := H.ok.pmod; have h2 := H.ok.gmod; have h3 := H.ok.lo
  simp only at h1 h2 h3
  exact (inPages_round' (by omega) h2).mp hx

theorem HeldRegion.rely {p size guard : Nat} {w w' : World} (hi : GInv ro w) (r : Rely m ro t w w') (H : HeldRegion t p size guard w) :
    HeldRegion t p size guard w' := by
  have s := r.sameP hi
  have h1 := H.ok.pmod; have h2 := H.ok.gmod; have h3 := H.ok.lo
  simp only at h1 h2 h3
  exact ⟨H.ok, fun pg hx => (s.pages pg).mpr (H.own pg hx),
    fun pg hx => (s.prot pg (H.own pg (inPages_body h1 h2 (by omega) hx))).trans (H.rw pg hx),
    fun pg hx => (s.prot pg (H.own pg (inPages_lo h1 h2 (by omega) hx))).trans (H.lo pg hx),
    fun pg hx => (s.prot pg (H.own pg (inPages_hi h1 h2 (by omega) hx))).trans (H.hi pg hx)⟩

theorem HeldRegion.dealloc {p size guard : Nat} {tl : Tl} {w : World} (hro : RoOk ro) (hF : FSys F) (hi : GInv ro w)
    (H : HeldRegion t p size guard w) :
    WP m ro t F (deallocatePages p size guard) (fun _ tl' w' => Idle m ro t w w' ∧ TlStep tl tl' ∧ (m = .seq → w'.σ.rt = w.σ.rt) ∧
      (m = .seq → w.G.calm = true → ∀ pg, inPages (p - guard) (size + guard * 2) pg → w'.σ.vm.prot pg = .unmapped)) tl w :=
  deallocatePages_wp hro hF hi H.ok.pmod H.ok.gmod (by have := H.ok.lo; simp only at this; omega) H.ok.size H.pages

/-- The result of mapping a region. -/
def MapPost (m : Mode) (ro : Ro) (t size guard : Nat) (ok : Nat → Prop) (tl : Tl) (w : World) (r : Option Nat) (tl' : Tl) (w' : World) : Prop :=
  Idle m ro t w w' ∧ tl'.unsealed = tl.unsealed ∧
  match r with
  | none => tl'.errno = ENOMEM
  | some p => ok p ∧ HeldRegion t p size guard w' ∧ ZeroP (inPages p size) w'

theorem map_at {a n : Nat} {w : World} (hro : RoOk ro) (hi : GInv ro w) (hu : ∀ pg, inPages a n pg → w.G.own pg = .none) :
    Idle m ro t w (w.map t a n) := vmStep_at hro hi (map_step hi hu)

theorem protRw_at {a n : Nat} {w : World} (hro : RoOk ro) (hi : GInv ro w) (hh : Held t (inPages a n) w) :
    Idle m ro t w (w.protRw a n) := vmStep_at hro hi (protRw_step hi hh)

theorem addGuards_some {size guard n : Nat} (h : addGuards size guard = some n) : n = size + guard + guard ∧ n < W64 := by
  unfold addGuards at h
  split at h
  · simp at h
  · split at h
    · simp at h
    · simp only [Option.some.injEq] at h; omega

/-- pages.c:12-29. -/
theorem allocatePages_wp {size guard : Nat} {tl : Tl} {w : World} (hro : RoOk ro) (hF : FSys F) (hi : GInv ro w)
    (hg : guard % PAGE = 0) (hg1 : PAGE ≤ guard) (hs : 0 < size) (hb : 16384 < size → size % PAGE = 0) :
    WP m ro t F (allocatePages size guard) (MapPost m ro t size guard (fun _ => True) tl w) tl w := by
  unfold allocatePages
  cases hag : addGuards size guard with
  | none =>
    exact WP.andThen (WP.setErrno hi fun w2 hr => WP.pure ⟨Idle.ofRely hi hr, rfl, rfl⟩)
  | some n =>
    obtain ⟨rfl, hlt⟩ := addGuards_some hag
    refine WP.andThen (WP.sysMap hro hF hi (by omega) (fun w2 hr => WP.pure ⟨Idle.ofRely hi hr, rfl, rfl⟩)
      fun real e w1 w2 h1 h2 h3 hu hw1 hg1' hr => ?_)
    have hi1 := hg1'.inv
    have a1 : Idle m ro t w w1 := by rw [hw1]; exact map_at hro hi hu
    have a2 := a1.rely hr
    have hi2 := a2.inv
    have hp1 : HeldP t (inPages real (size + guard + guard)) (fun _ => .none) w1 := by rw [hw1]; exact map_heldP
    have hz1 : ZeroP (inPages real (size + guard + guard)) w1 := by rw [hw1]; exact map_zeroP
    have hp2 := hp1.rely hi1 hr
    have hz2 := hz1.rely hi1 hr hp1.held
    have hh2 : Held t (inPages (real + guard) size) w2 := fun pg hx => hp2.held pg (by unfold inPages at *; omega)
    refine WP.andThen (WP.sysProtect hro hF hi2 (by omega) hh2 (fun _ w3 hr3 => ?_) (fun w3 hr3 => ?_))
    · rw [if_pos rfl]
      have hi3 := hr3.inv hi2
      refine WP.andThen ((sysUnmap_wp hro hF hi3 h1 (by omega) (hp2.held.rely hi2 hr3).heldN).mono fun _ tl' w' h => ?_)
      refine WP.pure ⟨(a2.rely hr3).trans0 h.1, h.2.1.sealed, ?_⟩
      rcases h.2.1.errno with h | h <;> exact h
    · rw [if_neg (by simp)]
      have hg3 := protRw_guar hro hi2 hh2
      have hp3 := (protRw_heldP (a := real + guard) (n := size) hp2).rely hg3.inv hr3
      have hz3 : ZeroP (inPages real (size + guard + guard)) w3 := ZeroP.rely hg3.inv hr3 hp2.held hz2
      refine WP.pure ⟨(a2.trans0 (protRw_at hro hi2 hh2)).rely hr3, rfl, trivial, ⟨?_, ?_, ?_, ?_, ?_⟩, ?_⟩
      · exact ⟨by show (real + guard) % PAGE = 0; omega, hg, hg1, by show guard + PAGE ≤ real + guard; omega, hs,
          by show real + guard + pageUp size + guard ≤ ADDR_END; unfold pageUp; omega, hb⟩
      · intro pg hx
        refine (hp3 pg ?_).1
        unfold RegPages inPages pageUp at hx
        unfold inPages; omega
      · intro pg hx
        have := (hp3 pg (by unfold inPages at *; omega)).2
        simp only at this; rw [if_pos hx] at this; exact this
      · intro pg hx
        have := (hp3 pg (by unfold inPages at *; omega)).2
        simp only at this; rw [if_neg (by unfold inPages at *; omega)] at this; exact this
      · intro pg hx
        have := (hp3 pg (by unfold inPages pageUp at *; omega)).2
        simp only at this; rw [if_neg (by unfold inPages pageUp at *; omega)] at this; exact this
      · intro x hx
        exact hz3 x (by unfold inPages at *; omega)

/-- The pages left after removing the ends. -/
theorem HeldP.mono {S S' : Nat → Prop} {pr : Nat → Prot} {w : World} (h : HeldP t S pr w) (hs : ∀ pg, S' pg → S pg) : HeldP t S' pr w :=
  fun pg hp => h pg (hs pg hp)

theorem ZeroP.mono {S S' : Nat → Prop} {w : World} (h : ZeroP S w) (hs : ∀ pg, S' pg → S pg) : ZeroP S' w := fun x hx => h x (hs _ hx)

theorem unmap_zeroP {a n : Nat} {w : World} {S : Nat → Prop} (h : ZeroP S w) : ZeroP S (w.unmap a n) := h

/-- Layout of an over-aligned mapping: `lead` bytes, guard, body, guard, `trail` bytes. -/
structure MapLayout (real lead size guard trail n : Nat) : Prop where
  realMod : real % PAGE = 0
  leadMod : lead % PAGE = 0
  trailMod : trail % PAGE = 0
  guardMod : guard % PAGE = 0
  sizeMod : size % PAGE = 0
  pos : 0 < size
  gpos : PAGE ≤ guard
  lo : PAGE ≤ real
  hi : real + n ≤ ADDR_END
  total : n = lead + guard + size + guard + trail

/-- Protections of the body of an over-aligned mapping. -/
abbrev bodyProt (base size : Nat) : Nat → Prot := fun pg => if inPages base size pg then .rw else .none

theorem MapLayout.region {real lead size guard trail n : Nat} (L : MapLayout real lead size guard trail n) {w : World}
    (h : HeldP t (inPages (real + lead) (guard + size + guard)) (bodyProt (real + guard + lead) size) w) :
    HeldRegion t (real + guard + lead) size guard w := by
  obtain ⟨l1, l2, l3, l4, l5, l6, l7, l8, l9, l10⟩ := L
  have hpu : pageUp size = size := pageUp_of_mod l5
  refine ⟨⟨?_, l4, l7, ?_, l6, ?_, fun _ => l5⟩, ?_, ?_, ?_, ?_⟩
  · show (real + guard + lead) % PAGE = 0; omega
  · show guard + PAGE ≤ real + guard + lead; omega
  · show real + guard + lead + pageUp size + guard ≤ ADDR_END; rw [hpu]; omega
  · intro pg hx
    refine (h pg ?_).1
    unfold RegPages at hx; rw [hpu] at hx
    unfold inPages at *; omega
  · intro pg hx
    have := (h pg (by unfold inPages at *; omega)).2
    simp only [bodyProt] at this; rw [if_pos hx] at this; exact this
  · intro pg hx
    have := (h pg (by unfold inPages at *; omega)).2
    simp only [bodyProt] at this; rw [if_neg (by unfold inPages at *; omega)] at this; exact this
  · intro pg hx
    rw [hpu] at hx
    have := (h pg (by unfold inPages at *; omega)).2
    simp only [bodyProt] at this; rw [if_neg (by unfold inPages at *; omega)] at this; exact this

/-- pages.c:74-81, the part after the release of the lead. -/
theorem trimTrail_wp {real lead size guard trail n : Nat} {tl0 tl : Tl} {w0 w : World} (hro : RoOk ro) (hF : FSys F)
    (L : MapLayout real lead size guard trail n) {ok : Nat → Prop} (hok : ok (real + guard + lead)) (a : Idle m ro t w0 w)
    (hsl : tl.unsealed = tl0.unsealed)
    (hp : HeldP t (fun pg => inPages real n pg ∧ ¬ inPages real lead pg) (bodyProt (real + guard + lead) size) w)
    (hz : ZeroP (inPages (real + guard + lead) size) w)
    (hN : m = .seq → HeldN t (inPages real n) w) :
    WP m ro t F (do
      if ← (if trail ≠ 0 then sysUnmapTrail (real + guard + lead + size + guard) trail else pure false) then
        let _ ← sysUnmap real n
        return none
      else return some (real + guard + lead)) (MapPost m ro t size guard ok tl0 w0) tl w := by
  have hi := a.inv
  have hLe := L
  obtain ⟨l1, l2, l3, l4, l5, l6, l7, l8, l9, l10⟩ := L
  have hend : ∀ w2 : World, Idle m ro t w0 w2 →
      HeldP t (inPages (real + lead) (guard + size + guard)) (bodyProt (real + guard + lead) size) w2 →
      ZeroP (inPages (real + guard + lead) size) w2 → MapPost m ro t size guard ok tl0 w0 (some (real + guard + lead)) tl w2 := by
    intro w2 a2 hp2 hz2
    exact ⟨a2, hsl, hok, hLe.region hp2, hz2⟩
  by_cases ht : trail ≠ 0
  · rw [if_pos ht]
    have hh : Held t (inPages (real + guard + lead + size + guard) trail) w := fun pg hx =>
      hp.held pg ⟨by unfold inPages at *; omega, by unfold inPages at *; omega⟩
    refine WP.andThen (WP.sysUnmapTrail hro hF hi (by omega) (by omega) hh.heldN (fun hc _ w2 hr => ?_) (fun w2 hr => ?_))
    · rw [if_pos rfl]
      have hm : m = .seq := by cases m with
        | seq => rfl
        | conc => exact absurd rfl hc
      have hi2 := hr.inv hi
      have e := hr.seq hm
      refine WP.andThen ((sysUnmap_wp hro hF hi2 l1 (by omega) (by rw [e]; exact hN hm)).mono fun _ tl' w' h => ?_)
      refine WP.pure ⟨(a.rely hr).trans0 h.1, h.2.1.sealed.trans hsl, ?_⟩
      rcases h.2.1.errno with h | h <;> exact h
    · rw [if_neg (by simp)]
      have hg := unmap_guar hro hi hh.heldN
      refine WP.pure (hend w2 ((a.trans0 (unmap_at hro hi hh.heldN)).rely hr) ?_ ?_)
      · refine ((unmap_heldP (a := real + guard + lead + size + guard) (n := trail) hp).mono fun pg hx => ?_).rely hg.inv hr
        exact ⟨⟨by unfold inPages at *; omega, by unfold inPages at *; omega⟩, by unfold inPages at *; omega⟩
      · exact ZeroP.rely hg.inv hr (fun pg hx => (unmap_heldP hp pg ⟨⟨by unfold inPages at *; omega, by unfold inPages at *; omega⟩, by unfold inPages at *; omega⟩).1) hz
  · rw [if_neg ht]
    refine WP.andThen (WP.pure ?_)
    rw [if_neg (by simp)]
    exact WP.pure (hend w a (hp.mono fun pg hx => ⟨by unfold inPages at *; omega, by unfold inPages at *; omega⟩) hz)

theorem mul_pages_mod {a b : Nat} (ha : a % PAGE = 0) (hb : b % PAGE = 0) (h : b ≤ a) : (a - b) % PAGE = 0 := by omega

/-- pages.c:67-81. -/
theorem trimMapping_wp {real lead size guard trail n : Nat} {tl0 tl : Tl} {w0 w : World} (hro : RoOk ro) (hF : FSys F)
    (L : MapLayout real lead size guard trail n) {ok : Nat → Prop} (hok : ok (real + guard + lead)) (a : Idle m ro t w0 w)
    (hsl : tl.unsealed = tl0.unsealed)
    (hp : HeldP t (inPages real n) (bodyProt (real + guard + lead) size) w)
    (hz : ZeroP (inPages (real + guard + lead) size) w) :
    WP m ro t F (trimMapping real n lead (real + guard + lead) size guard trail) (MapPost m ro t size guard ok tl0 w0) tl w := by
  have hi := a.inv
  have hLe := L
  obtain ⟨l1, l2, l3, l4, l5, l6, l7, l8, l9, l10⟩ := L
  unfold trimMapping
  by_cases ht : lead ≠ 0
  · rw [if_pos ht]
    have hh : Held t (inPages real lead) w := fun pg hx => hp.held pg (by unfold inPages at *; omega)
    refine WP.andThen (WP.sysUnmap hro hF hi (by omega) (by omega) hh.heldN (fun hca w2 hr => ?_) (fun w2 hr => ?_))
    · rw [if_pos rfl]
      have hi2 := hr.inv hi
      refine WP.andThen ((sysUnmap_wp hro hF hi2 l1 (by omega) (hp.held.rely hi hr).heldN).mono fun _ tl' w' h => ?_)
      refine WP.pure ⟨(a.rely hr).trans0 h.1, h.2.1.sealed.trans hsl, ?_⟩
      rcases h.2.1.errno with h | h <;> exact h
    · rw [if_neg (by simp)]
      have hg := unmap_guar hro hi hh.heldN
      have hp2 := unmap_heldP (a := real) (n := lead) hp
      refine trimTrail_wp hro hF hLe hok ((a.trans0 (unmap_at hro hi hh.heldN)).rely hr) hsl (hp2.rely hg.inv hr) ?_ ?_
      · exact ZeroP.rely hg.inv hr (fun pg hx => (hp2 pg ⟨by unfold inPages at *; omega, by unfold inPages at *; omega⟩).1) hz
      · intro hm pg hx
        rw [hr.seq hm]
        show (if inPages real lead pg then _ else _) = _ ∨ (if inPages real lead pg then _ else _) = _
        by_cases k : inPages real lead pg
        · rw [if_pos k]; exact Or.inl rfl
        · rw [if_neg k]; exact Or.inr (hp.held pg hx)
  · rw [if_neg ht]
    refine WP.andThen (WP.pure ?_)
    rw [if_neg (by simp)]
    refine trimTrail_wp hro hF hLe hok a hsl (hp.mono fun pg hx => hx.1) hz (fun _ => hp.held.heldN)

/-- The alignment computations of pages.c:56-60. -/
theorem align_lead {usable e size : Nat} (he : 12 ≤ e) (hu : usable % PAGE = 0)
    (hs : size % PAGE = 0) (hlt : usable + (size + (2 ^ e - PAGE)) < ADDR_END) :
    ∃ lead, sub64 (align usable (2 ^ e)) usable = lead ∧ lead % PAGE = 0 ∧ lead ≤ 2 ^ e - PAGE ∧ (usable + lead) % 2 ^ e = 0 ∧
      sub64 (sub64 (size + (2 ^ e - PAGE)) lead) size = 2 ^ e - PAGE - lead ∧ (2 ^ e - PAGE - lead) % PAGE = 0 := by
  have hA : 2 ^ e = PAGE * 2 ^ (e - 12) := by
    rw [show (PAGE : Nat) = 2 ^ 12 from rfl, ← Nat.pow_add]; congr 1; omega
  have hm : 0 < 2 ^ (e - 12) := Nat.two_pow_pos _
  have he64 : e < 64 := by
    by_contra hc
    have : 2 ^ 64 ≤ 2 ^ e := Nat.pow_le_pow_right (by decide) (by omega)
    have h64 : (2 : Nat) ^ 64 = 18446744073709551616 := by decide
    omega
  rw [align_of_lt usable e he64 (by omega)]
  have hq : (usable + (2 ^ e - 1)) / 2 ^ e * 2 ^ e % PAGE = 0 := by
    rw [hA, Nat.mul_comm _ (PAGE * _), Nat.mul_assoc]; exact Nat.mul_mod_right _ _
  have h2 : (usable + (2 ^ e - 1)) / 2 ^ e * 2 ^ e % 2 ^ e = 0 := Nat.mul_mod_left _ _
  have h3 : (usable + (2 ^ e - 1)) / 2 ^ e * 2 ^ e ≤ usable + (2 ^ e - 1) := Nat.div_mul_le_self _ _
  have h4 : usable ≤ (usable + (2 ^ e - 1)) / 2 ^ e * 2 ^ e := by
    have h5 := Nat.lt_div_mul_add (a := usable + (2 ^ e - 1)) (Nat.two_pow_pos e)
    omega
  generalize (usable + (2 ^ e - 1)) / 2 ^ e * 2 ^ e = z at *
  have hAm : 2 ^ e % PAGE = 0 := by rw [hA]; exact Nat.mul_mod_right _ _
  generalize 2 ^ e = A at *
  refine ⟨z - usable, sub64_of_le (by omega) h4, by omega, by omega, ?_, ?_, by omega⟩
  · rw [show usable + (z - usable) = z by omega]; exact h2
  · have e1 : sub64 (size + (A - PAGE)) (z - usable) = size + (A - PAGE) - (z - usable) := sub64_of_le (by omega) (by omega)
    rw [e1, sub64_of_le (by omega) (by omega)]; omega

/-- pages.c:50-81. -/
theorem mapAligned_wp {size guard e : Nat} {tl : Tl} {w : World} (hro : RoOk ro) (hF : FSys F) (hi : GInv ro w)
    (hg : guard % PAGE = 0) (hg1 : PAGE ≤ guard) (hs : 0 < size) (hsm : size % PAGE = 0) (he : 12 ≤ e) :
    WP m ro t F (mapAligned size (2 ^ e) guard (size + (2 ^ e - PAGE)) (size + (2 ^ e - PAGE) + guard + guard))
      (MapPost m ro t size guard (fun p => p % 2 ^ e = 0) tl w) tl w := by
  unfold mapAligned
  generalize hn : size + (2 ^ e - PAGE) + guard + guard = n
  refine WP.andThen (WP.sysMap hro hF hi (by omega) (fun w2 hr => WP.pure ⟨Idle.ofRely hi hr, rfl, rfl⟩)
      fun real e' w1 w2 h1 h2 h3 hu hw1 hg1' hr => ?_)
  obtain ⟨lead, hl, hl1, hl2, hl3, hl4, hl5⟩ := align_lead (usable := real + guard) (size := size) he (by omega) hsm (by omega)
  have hi1 := hg1'.inv
  have a1 : Idle m ro t w w1 := by rw [hw1]; exact map_at hro hi hu
  have a2 := a1.rely hr
  have hi2 := a2.inv
  have hp1 : HeldP t (inPages real n) (fun _ => .none) w1 := by rw [hw1]; exact map_heldP
  have hz1 : ZeroP (inPages real n) w1 := by rw [hw1]; exact map_zeroP
  have hp2 := hp1.rely hi1 hr
  have hz2 := hz1.rely hi1 hr hp1.held
  simp only
  rw [hl, hl4]
  have hL : MapLayout real lead size guard (2 ^ e - PAGE - lead) n :=
    ⟨h1, hl1, hl5, hg, hsm, hs, hg1, h2, h3, by omega⟩
  have hh2 : Held t (inPages (real + guard + lead) size) w2 := fun pg hx => hp2.held pg (by unfold inPages at *; omega)
  refine WP.andThen (WP.sysProtect hro hF hi2 (by omega) hh2 (fun _ w3 hr3 => ?_) (fun w3 hr3 => ?_))
  · rw [if_pos rfl]
    have hi3 := hr3.inv hi2
    refine WP.andThen ((sysUnmap_wp hro hF hi3 h1 (by omega) (hp2.held.rely hi2 hr3).heldN).mono fun _ tl' w' h => ?_)
    refine WP.pure ⟨(a2.rely hr3).trans0 h.1, h.2.1.sealed, ?_⟩
    rcases h.2.1.errno with h | h <;> exact h
  · rw [if_neg (by simp)]
    have hg3 := protRw_guar hro hi2 hh2
    have hp3 := (protRw_heldP (a := real + guard + lead) (n := size) hp2).rely hg3.inv hr3
    have hz3 : ZeroP (inPages (real + guard + lead) size) w3 :=
      ZeroP.rely hg3.inv hr3 hh2 (hz2.mono fun pg hx => by unfold inPages at *; omega)
    exact trimMapping_wp hro hF hL hl3 ((a2.trans0 (protRw_at hro hi2 hh2)).rely hr3) rfl hp3 hz3

theorem pageAlign_mod (n : Nat) : pageAlign n % PAGE = 0 := by rw [pageAlign_eq]; exact Nat.mul_mod_left _ _

theorem pageAlign_of_lt {n : Nat} (h : n + 4095 < W64) : pageAlign n = pageUp n := by
  rw [pageAlign_eq, Nat.mod_eq_of_lt h]; rfl

theorem HeldRegion.resize {p size size' guard : Nat} {w : World} (H : HeldRegion t p size guard w) (h0 : 0 < size')
    (h : pageUp size' = pageUp size) (hb : 16384 < size' → size' % PAGE = 0) : HeldRegion t p size' guard w := by
  have R := H.ok
  have h1 := R.pmod; have h2 := R.gmod; have h3 := R.lo; have h4 := R.hi
  simp only at h1 h2 h3 h4
  refine ⟨⟨h1, h2, R.gpos, h3, h0, ?_, hb⟩, fun pg hx => ?_, fun pg hx => ?_, H.lo, fun pg hx => ?_⟩
  · show p + pageUp size' + guard ≤ _; rw [h]; exact h4
  · unfold RegPages at hx; rw [h] at hx; exact H.own pg hx
  · exact H.rw pg (by unfold inPages pageUp at *; omega)
  · rw [h] at hx; exact H.hi pg hx

/-- pages.c:31-82. -/
theorem allocatePagesAligned_wp {size guard e : Nat} {tl : Tl} {w : World} (hro : RoOk ro) (hF : FSys F) (hi : GInv ro w)
    (hg : guard % PAGE = 0) (hg1 : PAGE ≤ guard) (hs : 0 < size) (hlt : size < W64) (hb : 16384 < size → size % PAGE = 0)
    (he : 12 ≤ e) (he' : e < 64) :
    WP m ro t F (allocatePagesAligned size (2 ^ e) guard) (MapPost m ro t size guard (fun p => p % 2 ^ e = 0) tl w) tl w := by
  have hA : PAGE ≤ 2 ^ e := Nat.pow_le_pow_right (n := 2) (by decide) he
  have hAlt : 2 ^ e < W64 := Nat.pow_lt_pow_right (a := 2) (by decide) he'
  have herr : WP m ro t F (do setErrno ENOMEM; return none) (MapPost m ro t size guard (fun p => p % 2 ^ e = 0) tl w) tl w :=
    WP.andThen (WP.setErrno hi fun w2 hr => WP.pure ⟨Idle.ofRely hi hr, rfl, rfl⟩)
  unfold allocatePagesAligned
  simp only
  by_cases h1 : pageAlign size = 0
  · rw [if_pos h1]; exact herr
  rw [if_neg h1, sub64_of_le hAlt hA]
  have hpu : pageAlign size = pageUp size := by
    refine pageAlign_of_lt ?_
    by_contra hc
    have : (size + 4095) % W64 < PAGE := by omega
    apply h1
    rw [pageAlign_eq, Nat.div_eq_of_lt this, Nat.zero_mul]
  generalize hd : pageAlign size + (2 ^ e - PAGE) = d
  by_cases h2 : W64 ≤ d
  · rw [if_pos h2]; exact herr
  rw [if_neg h2]
  cases hag : addGuards d guard with
  | none => exact herr
  | some n =>
    obtain ⟨rfl, hlt⟩ := addGuards_some hag
    subst hd
    simp only
    refine (mapAligned_wp hro hF hi hg hg1 (by omega) (pageAlign_mod _) he).mono fun r tl' w' h => ?_
    obtain ⟨ha, hsl, h⟩ := h
    refine ⟨ha, hsl, ?_⟩
    cases r with
    | none => exact h
    | some p =>
      obtain ⟨k1, k2, k3⟩ := h
      refine ⟨k1, k2.resize hs (by rw [hpu]; unfold pageUp; omega) hb, k3.mono fun pg hx => ?_⟩
      rw [hpu]; unfold inPages pageUp at *; omega

end HM
