import Verif.Props.Counts
import Verif.Statistics
/-
C52. What is reported about single arenas and size classes.
-/
namespace HM

variable {g : Cfg} {ro : Ro} {ar : Nat → Nat} {calm : Bool} {D : Client} {h : List Ev} {s : Sys} {t : Nat}

/-! ### What the numbers mean -/

/-- What the statistics of class `c` of arena `a` are after history `h`:
* how many blocks have been allocated in this class, and how many have been released, both modulo 2^64;
* the size of the class (16 for zero byte blocks) times the number of its live blocks;
* the size of its slabs times the number of its slabs in use. They contain all its live blocks. In all classes but that for
  zero byte blocks, they are exactly the accessible slabs. -/
structure BinIs (ro : Ro) (h : List Ev) (s : Sys) (a c : Nat) (b : BinStats) : Prop where
  nmalloc : b.nmalloc = h.countP (Ev.creates ro a c) % 2 ^ 64
  ndalloc : b.ndalloc = h.countP (Ev.frees ro a c) % 2 ^ 64
  allocated : ∃ S : Finset Nat, (∀ p, p ∈ S ↔ (live h p).isSome ∧ ro.area a c p) ∧ b.allocated = ro.g.slotSize c * S.card
  slabs : ∃ N : Finset Nat, (∀ p, ro.area a c p → (live h p).isSome → ro.slabNo a c p ∈ N) ∧
    (0 < c → ∀ x, ro.area a c x → (s.access x ↔ ro.slabNo a c x ∈ N)) ∧ b.slabAllocated = ro.g.slabSize c * N.card

/-- The statistics of a class in the state. -/
def binOf (σ : St) (a c : Nat) : BinStats := ⟨(σ.sc a c).nmalloc, (σ.sc a c).ndalloc, (σ.sc a c).slabAllocated, (σ.sc a c).allocated⟩

/-- The numbers for the slabs and for the blocks do not wrap. -/
theorem Linked.exact (hro : RoOk ro) {L : Nat → Option Info} {w : World} (l : Linked ro L w) (hst : ro.g.stats = true) :
    (sumAll ro fun a c => ro.g.slabSize c * rwCount ro.g c (w.G.loc a c)) + regionBytes w.σ.rt ≤ 2 ^ 63 ∧
    ∀ a c, a < ro.g.nArena → c < nClasses ro.g →
      (w.σ.sc a c).slabAllocated = ro.g.slabSize c * rwCount ro.g c (w.G.loc a c) ∧ (w.σ.sc a c).allocated = ro.g.slotSize c * liveCount ro.g c (w.σ.sc a c) ∧
      (w.σ.sc a c).allocated ≤ (w.σ.sc a c).slabAllocated := by
  have b := mapped_lt hro l
  rw [sum_slabSet] at b
  refine ⟨by omega, fun a c ha hc => ?_⟩
  have k1 := l.stat.small hst a c ha hc
  have k2 := live_le_rw l.inv ha hc
  have k3 : ro.g.slabSize c * rwCount ro.g c (w.G.loc a c) ≤ sumAll ro fun a c => ro.g.slabSize c * rwCount ro.g c (w.G.loc a c) := by
    unfold sumAll
    refine le_trans ?_ (Finset.single_le_sum (f := fun a => ∑ c ∈ Finset.range (nClasses ro.g), ro.g.slabSize c * rwCount ro.g c (w.G.loc a c)) (fun _ _ => Nat.zero_le _) (Finset.mem_range.mpr ha))
    exact Finset.single_le_sum (f := fun c => ro.g.slabSize c * rwCount ro.g c (w.G.loc a c)) (fun _ _ => Nat.zero_le _) (Finset.mem_range.mpr hc)
  have e1 : (w.σ.sc a c).slabAllocated = ro.g.slabSize c * rwCount ro.g c (w.G.loc a c) := by rw [k1.1.2]; exact Nat.mod_eq_of_lt (by omega)
  have e2 : (w.σ.sc a c).allocated = ro.g.slotSize c * liveCount ro.g c (w.σ.sc a c) := by rw [k1.1.1]; exact Nat.mod_eq_of_lt (by omega)
  exact ⟨e1, e2, by omega⟩

theorem Reach.bin (hg : Good g ar) (r : Reach g ro ar calm D h s) (hst : g.stats = true) {a c : Nat} (ha : a < g.nArena) (hc : c < nClasses g) :
    BinIs ro h s a c (binOf s.σ a c) := by
  obtain ⟨w, f, k⟩ := r.counts hg
  obtain ⟨hro, rfl⟩ := r.roOk hg
  obtain ⟨k1, k2⟩ := k a c ha hc
  obtain ⟨_, ex⟩ := f.linked.exact hro hst
  obtain ⟨e1, e2, _⟩ := ex a c ha hc
  have l := f.linked
  have st := l.stat.small hst a c ha hc
  rw [f.σ] at e1 e2 k2 st
  refine ⟨?_, ?_, ?_, ?_⟩
  · show (s.σ.sc a c).nmalloc = _
    rw [st.2.1, k2]; rfl
  · show (s.σ.sc a c).ndalloc = _
    rw [st.2.2, k1]; rfl
  · obtain ⟨S, h1, h2⟩ := f.liveSet hro ha hc
    rw [f.σ] at h2
    exact ⟨S, h1, by rw [h2]; exact e2⟩
  · refine ⟨(Finset.range (ro.g.metaMax c)).filter fun i => (w.G.loc a c i).isRw = true, fun p hp hl => ?_, fun h0 x hx => ?_, e1⟩
    · obtain ⟨i, k, hs⟩ := f.small hro ha hc hp hl
      have q := hs.lt l.inv
      rw [hs.2.2.1, slabNo_slot hc q.2.1]
      simp only [Finset.mem_filter, Finset.mem_range]
      exact ⟨q.1, q.2.2⟩
    · unfold Sys.access
      simp only [Finset.mem_filter, Finset.mem_range]
      rw [← f.σ]
      constructor
      · intro hp
        have := access_loc hro l ha hc hx hp
        exact ⟨this.1, this.2.1⟩
      · rintro ⟨q1, q2⟩
        have geo := classGeo ro.g hc
        refine (l.inv.clsVm a c ha hc).rw _ x q2 (fun e => by have := geo.zero_iff.mpr e; omega) ?_
        unfold Ro.area at hx
        unfold inRange slabAddr Ro.slabNo
        have h1 := Nat.div_add_mod (x - ro.regionStart a c) (ro.g.slabSize c)
        have h2 := Nat.mod_lt (x - ro.regionStart a c) (y := ro.g.slabSize c) (by have := geo.slab_ge; omega)
        rw [Nat.mul_comm] at h1
        omega

/-! ### Functions that only look -/

/-- `P` gives `a`, whatever is chosen, and leaves the memory as it is. -/
def Looks {α : Type} (P : Prog α) (σ : St) (tl tl' : Tl) (a : α) : Prop := ∀ chs, P.run chs σ tl = .ok (σ, tl', a)

theorem run_bind {α β : Type} {P : Prog α} {f : α → Prog β} {chs : Nat → Choice} {σ σ' : St} {tl tl' : Tl} {a : α} (h : P.run chs σ tl = .ok (σ', tl', a)) :
    ∃ k, (P >>= f).run chs σ tl = (f a).run (fun n => chs (n + k)) σ' tl' := by
  induction P generalizing chs σ tl with
  | ret b =>
    simp only [Prog.run, Res.ok.injEq, Prod.mk.injEq] at h
    obtain ⟨rfl, rfl, rfl⟩ := h
    exact ⟨0, rfl⟩
  | act F k ih =>
    simp only [Prog.run] at h
    revert h
    cases e : F (chs 0) σ tl with
    | ok x =>
      obtain ⟨σ1, tl1, b⟩ := x
      intro h
      obtain ⟨j, hj⟩ := ih b h
      refine ⟨j + 1, ?_⟩
      show (Prog.act F fun b => (k b).bind f).run _ σ tl = _
      simp only [Prog.run, e]
      exact hj
    | _ => exact nofun

/-- If the whole ends well, then so does the first part. -/
theorem run_bind_inv {α β : Type} {P : Prog α} {f : α → Prog β} {chs : Nat → Choice} {σ : St} {tl : Tl} {y : St × Tl × β} (h : (P >>= f).run chs σ tl = .ok y) :
    ∃ σ' tl' a k, P.run chs σ tl = .ok (σ', tl', a) ∧ (f a).run (fun n => chs (n + k)) σ' tl' = .ok y := by
  induction P generalizing chs σ tl with
  | ret b => exact ⟨σ, tl, b, 0, rfl, h⟩
  | act F k ih =>
    change (Prog.act F fun b => (k b).bind f).run _ σ tl = _ at h
    simp only [Prog.run] at h ⊢
    revert h
    cases e : F (chs 0) σ tl with
    | ok x =>
      obtain ⟨σ1, tl1, b⟩ := x
      intro h
      obtain ⟨σ', tl', a, j, h1, h2⟩ := ih b h
      exact ⟨σ', tl', a, j + 1, h1, h2⟩
    | _ => exact nofun

section
variable {α β : Type} {σ : St} {tl tl1 tl2 : Tl} {a : α} {b : β}

theorem Looks.bind {P : Prog α} {f : α → Prog β} (h1 : Looks P σ tl tl1 a) (h2 : Looks (f a) σ tl1 tl2 b) : Looks (P >>= f) σ tl tl2 b := fun chs => by
  obtain ⟨k, e⟩ := run_bind (f := f) (h1 chs)
  rw [e]
  exact h2 _

theorem Looks.ret : Looks (pure a) σ tl tl a := fun _ => rfl

theorem Looks.unseal : Looks unsealMeta σ tl { tl with unsealed := true } () := fun _ => rfl

theorem Looks.seal : Looks sealMeta σ tl { tl with unsealed := false } () := fun _ => rfl

theorem Looks.critical {S : Sect} {F : St → α} (hs : ro.g.sealMetadata = true → tl.unsealed = true) :
    Looks (critical ro S fun _ σ e => .ok (σ, e, F σ)) σ tl tl (F σ) := fun chs => by
  simp only [HM.critical, Prog.run]
  cases e : ro.g.sealMetadata with
  | false => rfl
  | true =>
    obtain ⟨er, u⟩ := tl
    have := hs e
    simp only at this
    subst this
    rfl

theorem Looks.readBin (hs : ro.g.sealMetadata = true → tl.unsealed = true) (a c : Nat) : Looks (readBin ro a c) σ tl tl (binOf σ a c) :=
  Looks.critical (F := fun σ => binOf σ a c) hs

theorem Looks.large (hs : ro.g.sealMetadata = true → tl.unsealed = true) : Looks (readLargeStats ro) σ tl tl σ.largeAllocated :=
  Looks.critical (F := fun σ => σ.largeAllocated) hs

theorem Looks.sumClasses (hs : ro.g.sealMetadata = true → tl.unsealed = true) (a n c : Nat) (x : Nat × Nat) : ∃ y, Looks (sumClasses ro a n c x) σ tl tl y ∧
    y.1 % W64 = (x.1 + ∑ i ∈ Finset.range n, (σ.sc a (c + i)).slabAllocated) % W64 ∧ (x.1 < W64 → y.1 < W64) ∧
    y.2 % W64 = (x.2 + ∑ i ∈ Finset.range n, (σ.sc a (c + i)).allocated) % W64 ∧ (x.2 < W64 → y.2 < W64) := by
  induction n generalizing c x with
  | zero => exact ⟨x, Looks.ret, by simp⟩
  | succ n ih =>
    obtain ⟨y, h1, h2, h3, h4, h5⟩ := ih (c + 1) (add64 x.1 (σ.sc a c).slabAllocated, add64 x.2 (σ.sc a c).allocated)
    have e : ∀ F : Nat → Nat, ∑ i ∈ Finset.range (n + 1), F (c + i) = F c + ∑ i ∈ Finset.range n, F (c + 1 + i) := fun F => by
      rw [Finset.sum_range_succ', Nat.add_comm]
      simp only [Nat.add_zero, Nat.add_assoc, Nat.add_comm 1]
    refine ⟨y, ?_, ?_, fun _ => h3 (Nat.mod_lt _ (by decide)), ?_, fun _ => h5 (Nat.mod_lt _ (by decide))⟩
    · exact Looks.bind (Looks.critical (F := fun σ => ((σ.sc a c).slabAllocated, (σ.sc a c).allocated)) hs) h1
    · rw [h2, e fun i => (σ.sc a i).slabAllocated]
      simp only [add64]
      omega
    · rw [h4, e fun i => (σ.sc a i).allocated]
      simp only [add64]
      omega

end

theorem Reach.sealed (hg : Good g ar) (r : Reach g ro ar calm D h s) : ({ s.tl t with unsealed := false } : Tl) = s.tl t := by
  obtain ⟨w, f, _⟩ := r.fits hg
  have := f.tl t
  rw [← this]

/-! ### C52 -/

/-- C52. Without sealed metadata, `h_mallinfo_bin_info` reports for each size class of each arena the bytes in its live blocks,
and how many blocks have been allocated and released since the start. It changes nothing. -/
theorem c52_bin_partial (hg : Good g ar) (r : Reach g ro ar calm D h s) (hst : g.stats = true) (hs : g.sealMetadata = false) {a c : Nat}
    (ha : a < g.nArena) (hc : c < hNbins g) : ∃ b, BinIs ro h s a c b ∧
      ∀ chs, ∃ tl, (hBinInfo ro a c).run chs s.σ (s.tl t) = .ok (s.σ, tl, ⟨b.allocated, b.nmalloc, b.ndalloc⟩) ∧ tl.errno = (s.tl t).errno := by
  refine ⟨_, r.bin hg hst ha hc, fun chs => ?_⟩
  obtain ⟨_, rfl⟩ := r.roOk hg
  unfold hBinInfo
  rw [if_pos hst, if_pos ⟨ha, hc⟩]
  have hs' : ∀ tl : Tl, ro.g.sealMetadata = true → tl.unsealed = true := fun _ h => by rw [hs] at h; cases h
  refine ⟨{ s.tl t with unsealed := true }, ?_, rfl⟩
  revert chs
  refine Looks.bind Looks.seal (Looks.bind (Looks.readBin (hs' _) a c) (Looks.bind Looks.unseal ?_))
  exact Looks.ret

/-- C52 fails with sealed metadata: `h_mallinfo_bin_info` then crashes for every size class of every arena, in any state
(h_malloc.c:2124-2134 seals the metadata before it reads it). -/
theorem c52_bin_crashes (ro : Ro) (hst : ro.g.stats = true) (hs : ro.g.sealMetadata = true) {a c : Nat} (ha : a < ro.g.nArena) (hc : c < nClasses ro.g)
    (chs : Nat → Choice) (σ : St) (tl : Tl) : (hBinInfo ro a c).run chs σ tl = .segv := by
  unfold hBinInfo
  rw [if_pos hst, if_pos ⟨ha, hc⟩]
  show (sealMeta >>= fun _ => _).run chs σ tl = _
  obtain ⟨k, e⟩ := run_bind (f := fun _ => readBin ro a c >>= fun b => unsealMeta >>= fun _ => pure (⟨b.allocated, b.nmalloc, b.ndalloc⟩ : BinInfo))
    (Looks.seal (σ := σ) (tl := tl) chs)
  refine e.trans ?_
  show (Prog.act _ fun _ => _).run _ _ _ = _
  simp only [Prog.run]
  rw [hs]
  rfl

theorem Linked.arena (hro : RoOk ro) {L : Nat → Option Info} {w : World} (l : Linked ro L w) (hst : ro.g.stats = true) {a : Nat} (ha : a < ro.g.nArena) {tl : Tl}
    (e0 : ({ tl with unsealed := false } : Tl) = tl) (chs : Nat → Choice) :
    (hArenaInfo ro a).run chs w.σ tl =
      .ok (w.σ, tl, ⟨∑ c ∈ Finset.range (nClasses ro.g), (w.σ.sc a c).slabAllocated, 0, ∑ c ∈ Finset.range (nClasses ro.g), (w.σ.sc a c).allocated⟩) := by
  obtain ⟨b1, b2⟩ := l.exact hro hst
  unfold hArenaInfo
  rw [if_pos hst, if_pos ha]
  obtain ⟨y, h1, h2, h3, h4, h5⟩ := Looks.sumClasses (ro := ro) (σ := w.σ) (tl := { tl with unsealed := true }) (fun _ => rfl) a (nClasses ro.g) 0 (0, 0)
  have bd1 : ∑ c ∈ Finset.range (nClasses ro.g), (w.σ.sc a c).slabAllocated ≤ 2 ^ 63 := by
    have : ∑ c ∈ Finset.range (nClasses ro.g), (w.σ.sc a c).slabAllocated = ∑ c ∈ Finset.range (nClasses ro.g), ro.g.slabSize c * rwCount ro.g c (w.G.loc a c) :=
      Finset.sum_congr rfl fun c hc => by exact (b2 a c ha (Finset.mem_range.mp hc)).1
    rw [this]
    refine le_trans ?_ (le_trans (Nat.le_add_right _ _) b1)
    unfold sumAll
    exact Finset.single_le_sum (f := fun a => ∑ c ∈ Finset.range (nClasses ro.g), ro.g.slabSize c * rwCount ro.g c (w.G.loc a c)) (fun _ _ => Nat.zero_le _) (Finset.mem_range.mpr ha)
  have bd2 : ∑ c ∈ Finset.range (nClasses ro.g), (w.σ.sc a c).allocated ≤ ∑ c ∈ Finset.range (nClasses ro.g), (w.σ.sc a c).slabAllocated :=
    Finset.sum_le_sum fun c hc => by exact (b2 a c ha (Finset.mem_range.mp hc)).2.2
  have e1 : y.1 = ∑ c ∈ Finset.range (nClasses ro.g), (w.σ.sc a c).slabAllocated := by
    have := h3 (by decide)
    rw [Nat.mod_eq_of_lt this] at h2
    rw [h2]
    simp only [Nat.zero_add]
    exact Nat.mod_eq_of_lt (by omega)
  have e2 : y.2 = ∑ c ∈ Finset.range (nClasses ro.g), (w.σ.sc a c).allocated := by
    have := h5 (by decide)
    rw [Nat.mod_eq_of_lt this] at h4
    rw [h4]
    simp only [Nat.zero_add]
    exact Nat.mod_eq_of_lt (by omega)
  rw [← e1, ← e2]
  suffices H : Looks _ w.σ tl { tl with unsealed := false } _ by rw [e0] at H; exact H chs
  refine Looks.bind Looks.unseal (Looks.bind (Looks.bind h1 (Looks.ret (a := (⟨y.1, 0, y.2⟩ : ArenaInfo)))) (Looks.bind Looks.seal ?_))
  exact Looks.ret

theorem Reach.arena (hg : Good g ar) (r : Reach g ro ar calm D h s) (hst : g.stats = true) {a : Nat} (ha : a < g.nArena) (chs : Nat → Choice) :
    (hArenaInfo ro a).run chs s.σ (s.tl t) =
      .ok (s.σ, s.tl t, ⟨∑ c ∈ Finset.range (nClasses g), (s.σ.sc a c).slabAllocated, 0, ∑ c ∈ Finset.range (nClasses g), (s.σ.sc a c).allocated⟩) := by
  obtain ⟨w, f, _⟩ := r.fits hg
  have e0 := r.sealed (t := t) hg
  obtain ⟨hro, rfl⟩ := r.roOk hg
  rw [← f.σ]
  exact f.linked.arena hro hst ha e0 chs

/-- C52. `h_mallinfo_arena_info` reports for each arena the bytes in its slabs in use and the bytes in its live small blocks, summed
over the size classes that `h_mallinfo_nbins` announces. It changes nothing. -/
theorem c52_arena (hg : Good g ar) (r : Reach g ro ar calm D h s) (hst : g.stats = true) {a : Nat} (ha : a < g.nArena) :
    ∃ b : Nat → BinStats, (∀ c, c < hNbins g → BinIs ro h s a c (b c)) ∧ ∀ chs, (hArenaInfo ro a).run chs s.σ (s.tl t) =
      .ok (s.σ, s.tl t, ⟨∑ c ∈ Finset.range (hNbins g), (b c).slabAllocated, 0, ∑ c ∈ Finset.range (hNbins g), (b c).allocated⟩) := by
  refine ⟨binOf s.σ a, fun c hc => r.bin hg hst ha hc, r.arena hg hst ha⟩

/-- The large blocks and the number for them. -/
theorem Reach.largeStats (hg : Good g ar) (r : Reach g ro ar calm D h s) (hst : g.stats = true)
    (hal : ∀ t c x, Ev.call t c x ∈ h → ∀ i al, c.request = some i → i.align = some al → al ≤ 4096) :
    ∃ (B : Finset Nat) (size : Nat → Nat), (∀ p, p ∈ B ↔ (live h p).isSome ∧ ¬ (ro.slabStart ≤ p ∧ p < ro.slabEnd)) ∧ (∀ p ∈ B, Usable ro s.σ p (size p)) ∧
      s.σ.largeAllocated = ∑ p ∈ B, size p := by
  obtain ⟨w, f, hun, _⟩ := r.fits hg
  obtain ⟨hro, rfl⟩ := r.roOk hg
  have l := f.linked
  have hz : w.G.untracked = 0 := by
    have h0 := untr_zero (ro := ro) hal
    omega
  have hlarge : w.σ.largeAllocated = regionBytes w.σ.rt := by
    obtain ⟨k1, k2⟩ := l.stat.large hst
    have b := mapped_lt hro l
    rw [hz, Nat.add_zero, Nat.mod_eq_of_lt k1, Nat.mod_eq_of_lt (by omega)] at k2
    exact k2
  have key : ∀ p, ∃ n, ∀ z gd, w.σ.rt.Has ⟨p, z, gd⟩ → n = z := by
    intro p
    by_cases hr : ∃ z gd, w.σ.rt.Has ⟨p, z, gd⟩
    · obtain ⟨z, gd, hr⟩ := hr
      refine ⟨z, fun z' gd' hz' => ?_⟩
      have := l.inv.has_unique hr hz' rfl
      simp only [RegionMeta.mk.injEq] at this
      exact this.2.1
    · exact ⟨0, fun z gd hz => absurd ⟨z, gd, hz⟩ hr⟩
  choose size k2 using key
  have hlive : ∀ q z gd, w.σ.rt.Has ⟨q, z, gd⟩ → (live h q).isSome = true := fun q z gd q1 => by
    rw [← l.blk q, l.inv.blk q]; exact Or.inr ⟨z, gd, q1⟩
  refine ⟨w.σ.rt.regs.image (fun r => r.p), size, fun p => ?_, fun p hp => ?_, ?_⟩
  · rw [Finset.mem_image]
    constructor
    · rintro ⟨⟨q, z, gd⟩, q1, rfl⟩
      have q1 := (RegTable.mem_regs _ _).mp q1
      refine ⟨hlive q z gd q1, fun hh => ?_⟩
      have := has_not_inSlab hro l.inv q1
      unfold Ro.inSlab at this
      simp only [hh.1, hh.2, decide_true, Bool.and_self] at this
      cases this
    · rintro ⟨q1, q2⟩
      rw [← l.blk p, l.inv.blk p] at q1
      rcases q1 with ⟨a, c, i, k, hs⟩ | ⟨z, gd, hz⟩
      · have := hs.inSlab hro l.inv
        unfold Ro.inSlab at this
        simp only [Bool.and_eq_true, decide_eq_true_eq] at this
        exact absurd ⟨this.2, this.1⟩ q2
      · exact ⟨_, (RegTable.mem_regs _ _).mpr hz, rfl⟩
  · rw [Finset.mem_image] at hp
    obtain ⟨⟨q, z, gd⟩, q1, rfl⟩ := hp
    have q1 := (RegTable.mem_regs _ _).mp q1
    rw [← f.σ]
    refine usable_complete hro l (hlive q z gd q1) (Or.inr ⟨gd, ?_⟩) ?_
    · rw [k2 q z gd q1]; exact q1
    · rintro ⟨_, a, c, i, k, hs, _⟩
      have e1 := hs.inSlab hro l.inv
      rw [has_not_inSlab hro l.inv q1] at e1
      cases e1
  · rw [← f.σ, hlarge, Finset.sum_image]
    · exact Finset.sum_congr rfl fun ⟨q, z, gd⟩ hr => (k2 q z gd ((RegTable.mem_regs _ _).mp hr)).symm
    · intro r1 hx r2 hy e
      exact l.inv.has_unique ((RegTable.mem_regs _ _).mp hx) ((RegTable.mem_regs _ _).mp hy) e

/-- What `h_mallinfo_arena_info` gives for the large blocks. -/
theorem Reach.arenaLarge (hg : Good g ar) (r : Reach g ro ar calm D h s) (hst : g.stats = true) (chs : Nat → Choice) :
    (hArenaInfo ro g.nArena).run chs s.σ (s.tl t) = .ok (s.σ, s.tl t, ⟨s.σ.largeAllocated, s.σ.largeAllocated, 0⟩) := by
  have e0 := r.sealed (t := t) hg
  obtain ⟨hro, rfl⟩ := r.roOk hg
  unfold hArenaInfo
  rw [if_pos hst, if_neg (Nat.lt_irrefl _), if_pos rfl]
  suffices H : Looks _ s.σ (s.tl t) { s.tl t with unsealed := false } _ by rw [e0] at H; exact H chs
  refine Looks.bind Looks.unseal (Looks.bind (Looks.bind (Looks.large fun _ => rfl) (Looks.ret (a := (⟨s.σ.largeAllocated, s.σ.largeAllocated, 0⟩ : ArenaInfo))))
    (Looks.bind Looks.seal ?_))
  exact Looks.ret

/-- C52. The last arena that `h_mallinfo_arena_info` reports on stands for the large blocks: suppose no allocation so far asked
for an alignment of more than a page (see `c29_drift`). Then it reports the bytes in them. Beyond it, zeros are reported. -/
theorem c52_large_partial (hg : Good g ar) (r : Reach g ro ar calm D h s) (hst : g.stats = true)
    (hal : ∀ t c x, Ev.call t c x ∈ h → ∀ i al, c.request = some i → i.align = some al → al ≤ 4096) :
    (∃ (B : Finset Nat) (size : Nat → Nat), (∀ p, p ∈ B ↔ (live h p).isSome ∧ ¬ (ro.slabStart ≤ p ∧ p < ro.slabEnd)) ∧ (∀ p ∈ B, Usable ro s.σ p (size p)) ∧
      ∀ chs, (hArenaInfo ro (hNarenas g - 1)).run chs s.σ (s.tl t) = .ok (s.σ, s.tl t, ⟨∑ p ∈ B, size p, ∑ p ∈ B, size p, 0⟩)) ∧
    ∀ a chs, hNarenas g ≤ a → (hArenaInfo ro a).run chs s.σ (s.tl t) = .ok (s.σ, s.tl t, ⟨0, 0, 0⟩) := by
  constructor
  · obtain ⟨B, size, h1, h2, h3⟩ := r.largeStats hg hst hal
    refine ⟨B, size, h1, h2, fun chs => ?_⟩
    rw [← h3]
    exact r.arenaLarge hg hst chs
  · intro a chs ha
    have e0 := r.sealed (t := t) hg
    obtain ⟨hro, rfl⟩ := r.roOk hg
    unfold hNarenas at ha
    unfold hArenaInfo
    rw [if_pos hst, if_neg (by omega), if_neg (by omega)]
    suffices H : Looks _ s.σ (s.tl t) { s.tl t with unsealed := false } _ by rw [e0] at H; exact H chs
    refine Looks.bind Looks.unseal (Looks.bind (Looks.ret (a := (⟨0, 0, 0⟩ : ArenaInfo))) (Looks.bind Looks.seal ?_))
    exact Looks.ret

/-- C52. The reports on the arenas add up to that of `mallinfo`, modulo 2^64. -/
theorem c52_adds_up (hg : Good g ar) (r : Reach g ro ar calm D h s) (hst : g.stats = true) {i : Nat → ArenaInfo} {chs : Nat → Nat → Choice} {chs0 : Nat → Choice}
    (hi : ∀ a, a < hNarenas g → ∃ s', (hArenaInfo ro a).run (chs a) s.σ (s.tl t) = .ok (s', s.tl t, i a)) (he : ∀ n, Env calm (chs0 n)) {s' : Sys} {m : MallInfo}
    (hc : s.call ro ar t .mallinfo chs0 = .ok (s', .info m)) :
    m.hblkhd = (∑ a ∈ Finset.range (hNarenas g), (i a).hblkhd) % 2 ^ 64 ∧
    m.uordblks = (∑ a ∈ Finset.range (hNarenas g), ((i a).uordblks + (i a).fsmblks)) % 2 ^ 64 := by
  have e1 : ∀ a, a < g.nArena → i a = ⟨∑ c ∈ Finset.range (nClasses g), (s.σ.sc a c).slabAllocated, 0, ∑ c ∈ Finset.range (nClasses g), (s.σ.sc a c).allocated⟩ := fun a ha => by
    obtain ⟨s', h1⟩ := hi a (Nat.lt_succ_of_lt ha)
    rw [r.arena hg hst ha] at h1
    simp only [Res.ok.injEq, Prod.mk.injEq] at h1
    exact h1.2.2.symm
  have e2 : i g.nArena = ⟨s.σ.largeAllocated, s.σ.largeAllocated, 0⟩ := by
    obtain ⟨s', h1⟩ := hi g.nArena (Nat.lt_succ_self _)
    rw [r.arenaLarge hg hst] at h1
    simp only [Res.ok.injEq, Prod.mk.injEq] at h1
    exact h1.2.2.symm
  obtain ⟨w, w', C, _⟩ := r.called hg (c := .mallinfo) trivial he hc
  obtain ⟨i', e3, _, _, hi'⟩ := C.res
  obtain ⟨_, rfl⟩ := r.roOk hg
  cases e3
  obtain ⟨q1, q2, _, _⟩ := hi' hst
  change m.hblkhd = (w.σ.largeAllocated + sumAll ro fun a c => (w.σ.sc a c).slabAllocated) % W64 at q1
  change m.uordblks = (w.σ.largeAllocated + sumAll ro fun a c => (w.σ.sc a c).allocated) % W64 at q2
  rw [C.pre.σ] at q1 q2
  unfold hNarenas
  rw [Finset.sum_range_succ, Finset.sum_range_succ, e2, q1, q2]
  refine ⟨?_, ?_⟩
  · rw [Finset.sum_congr rfl fun a ha => by rw [e1 a (Finset.mem_range.mp ha)], Nat.add_comm]; rfl
  · rw [Finset.sum_congr rfl fun a ha => by rw [e1 a (Finset.mem_range.mp ha), Nat.zero_add], Nat.add_comm]; rfl

/-- What a function returns. -/
def Prog.value {α : Type} (P : Prog α) (s : Sys) (t : Nat) : Option α :=
  match P.run (fun _ => exAt 0) s.σ (s.tl t) with
  | .ok (_, _, x) => some x
  | _ => none

/-- Three blocks are allocated in one class, and two of them are freed; a zero byte block and a large block are allocated. -/
example : ∃ h s, Reach (exCfg true false) (exRo true false) (fun t => t % 4) true anyClient h s ∧
    (h.countP (Ev.creates (exRo true false) 0 7) = 3 ∧ h.countP (Ev.frees (exRo true false) 0 7) = 2) ∧
    (hBinInfo (exRo true false) 0 7).value s 0 = some ⟨112, 3, 2⟩ ∧ (hBinInfo (exRo true false) 1 0).value s 0 = some ⟨16, 1, 0⟩ ∧
    (hArenaInfo (exRo true false) 0).value s 0 = some ⟨4096, 0, 112⟩ ∧ (hArenaInfo (exRo true false) 1).value s 0 = some ⟨4096, 0, 16⟩ ∧
    (hArenaInfo (exRo true false) 4).value s 0 = some ⟨229376, 229376, 0⟩ := by
  obtain ⟨h, s, h1, h2⟩ := ex_any (stats := true) (sealed := false) (calm := true)
    [.call 0 (.malloc 100) 0, .call 0 (.malloc 101) 1, .call 0 (.malloc 102) 2, .call 1 (.malloc 0) 0, .call 0 (.malloc 200000) exMapAt, .call 0 (.free exA) 0, .call 0 (.free exB) 0]
    (fun h s => decide ((h.countP (Ev.creates (exRo true false) 0 7) = 3 ∧ h.countP (Ev.frees (exRo true false) 0 7) = 2) ∧
      (hBinInfo (exRo true false) 0 7).value s 0 = some ⟨112, 3, 2⟩ ∧ (hBinInfo (exRo true false) 1 0).value s 0 = some ⟨16, 1, 0⟩ ∧
      (hArenaInfo (exRo true false) 0).value s 0 = some ⟨4096, 0, 112⟩ ∧ (hArenaInfo (exRo true false) 1).value s 0 = some ⟨4096, 0, 16⟩ ∧
      (hArenaInfo (exRo true false) 4).value s 0 = some ⟨229376, 229376, 0⟩))
    (by decide +kernel)
  exact ⟨h, s, h1, decide_eq_true_eq.mp h2⟩

/-- With sealed metadata, the reports on arenas are available, but those on size classes are not. -/
example : ∃ h s, Reach (exCfg true true) (exRo true true) (fun t => t % 4) true anyClient h s ∧
    (hArenaInfo (exRo true true) 0).value s 0 = some ⟨4096, 0, 112⟩ ∧ (hBinInfo (exRo true true) 0 7).value s 0 = none := by
  obtain ⟨h, s, h1, h2⟩ := ex_any (stats := true) (sealed := true) (calm := true) [.call 0 (.malloc 100) 0]
    (fun h s => decide ((hArenaInfo (exRo true true) 0).value s 0 = some ⟨4096, 0, 112⟩ ∧ (hBinInfo (exRo true true) 0 7).value s 0 = none))
    (by decide +kernel)
  exact ⟨h, s, h1, decide_eq_true_eq.mp h2⟩

/-! ### `malloc_info` -/

/-- Writing to the stream does not involve the allocator. -/
def Quiet (out : Piece → Prog Unit) : Prop := ∀ p σ tl, Looks (out p) σ tl tl ()

/-- The pieces for the classes: those with no statistics are left out. -/
def binPieces (ro : Ro) (b : Nat → BinStats) (cs : List Nat) : List Piece :=
  cs.filterMap fun c => if b c = ⟨0, 0, 0, 0⟩ then none else some (.bin c (ro.g.classSize c) (b c))

theorem BinStats.none_iff {b : BinStats} : b.none = true ↔ b = ⟨0, 0, 0, 0⟩ := by
  obtain ⟨x, y, z, v⟩ := b
  simp [BinStats.none, and_assoc]

theorem Looks.infoClasses {out : Piece → Prog Unit} (ho : Quiet out) {σ : St} {tl : Tl} (hs : ro.g.sealMetadata = true → tl.unsealed = true) (a n c : Nat) (l : List Piece) :
    Looks (infoClasses ro out a n c l) σ tl tl (l ++ binPieces ro (binOf σ a) (List.range' c n)) := by
  induction n generalizing c l with
  | zero =>
    have : l ++ binPieces ro (binOf σ a) (List.range' c 0) = l := by simp [binPieces]
    rw [this]
    exact Looks.ret
  | succ n ih =>
    refine Looks.bind (Looks.readBin hs a c) ?_
    by_cases k : binOf σ a c = ⟨0, 0, 0, 0⟩
    · rw [if_pos (BinStats.none_iff.mpr k)]
      have : l ++ binPieces ro (binOf σ a) (List.range' c (n + 1)) = l ++ binPieces ro (binOf σ a) (List.range' (c + 1) n) := by
        simp [binPieces, List.range'_succ, k]
      rw [this]
      exact ih (c + 1) l
    · rw [if_neg fun e => k (BinStats.none_iff.mp e)]
      have : l ++ binPieces ro (binOf σ a) (List.range' c (n + 1)) =
          (l ++ [Piece.bin c (ro.g.classSize c) (binOf σ a c)]) ++ binPieces ro (binOf σ a) (List.range' (c + 1) n) := by
        simp [binPieces, List.range'_succ, k]
      rw [this]
      exact Looks.bind (ho _ _ _) (ih (c + 1) _)

/-- The pieces for the arenas. -/
def heapPieces (ro : Ro) (b : Nat → Nat → BinStats) (as : List Nat) : List Piece :=
  as.flatMap fun a => [.heap a] ++ binPieces ro (b a) (List.range (nClasses ro.g)) ++ [.heapEnd]

theorem Looks.infoArenas {out : Piece → Prog Unit} (ho : Quiet out) {σ : St} {tl : Tl} (hs : ro.g.sealMetadata = true → tl.unsealed = true) (n a : Nat) (l : List Piece) :
    Looks (infoArenas ro out n a l) σ tl tl (l ++ heapPieces ro (binOf σ) (List.range' a n)) := by
  induction n generalizing a l with
  | zero =>
    have : l ++ heapPieces ro (binOf σ) (List.range' a 0) = l := by simp [heapPieces]
    rw [this]
    exact Looks.ret
  | succ n ih =>
    have : l ++ heapPieces ro (binOf σ) (List.range' a (n + 1)) =
        (((l ++ [.heap a]) ++ binPieces ro (binOf σ a) (List.range' 0 (nClasses ro.g))) ++ [.heapEnd]) ++ heapPieces ro (binOf σ) (List.range' (a + 1) n) := by
      simp [heapPieces, List.range'_succ, List.range_eq_range']
    rw [this]
    exact Looks.bind (ho _ _ _) (Looks.bind (Looks.infoClasses ho hs a (nClasses ro.g) 0 _) (Looks.bind (ho _ _ _) (ih (a + 1) _)))

/-- C52. `malloc_info` fails with EINVAL for options other than 0, and writes nothing. Otherwise it succeeds. With statistics, it
writes one element per arena, with one element for each size class with statistics other than 0, and one element for the
large blocks. It changes nothing, if writing to the stream does not call the allocator. -/
theorem c52_malloc_info_partial (hg : Good g ar) (r : Reach g ro ar calm D h s) {out : Piece → Prog Unit} (ho : Quiet out) :
    (∀ n chs, n ≠ 0 → (hMallocInfo ro out n).run chs s.σ (s.tl t) = .ok (s.σ, { s.tl t with errno := EINVAL }, (false, []))) ∧
    (g.stats = false → ∀ chs, (hMallocInfo ro out 0).run chs s.σ (s.tl t) = .ok (s.σ, s.tl t, (true, [.head, .tail]))) ∧
    (g.stats = true → ∃ (b : Nat → Nat → BinStats) (large : Nat), (∀ a c, a < g.nArena → c < nClasses g → BinIs ro h s a c (b a c)) ∧
      ((∀ t c x, Ev.call t c x ∈ h → ∀ i al, c.request = some i → i.align = some al → al ≤ 4096) →
        ∃ (B : Finset Nat) (size : Nat → Nat), (∀ p, p ∈ B ↔ (live h p).isSome ∧ ¬ (ro.slabStart ≤ p ∧ p < ro.slabEnd)) ∧ (∀ p ∈ B, Usable ro s.σ p (size p)) ∧
          large = ∑ p ∈ B, size p) ∧
      ∀ chs, (hMallocInfo ro out 0).run chs s.σ (s.tl t) = .ok (s.σ, s.tl t, (true,
        [.head] ++ (List.range g.nArena).flatMap (fun a => [.heap a] ++
          (List.range (nClasses g)).filterMap (fun c => if b a c = ⟨0, 0, 0, 0⟩ then none else some (.bin c (g.classSize c) (b a c))) ++ [.heapEnd]) ++
        [.large g.nArena large, .tail]))) := by
  have e0 := r.sealed (t := t) hg
  refine ⟨fun n chs hn => ?_, fun hst chs => ?_, fun hst => ⟨binOf s.σ, s.σ.largeAllocated, fun a c ha hc => r.bin hg hst ha hc, r.largeStats hg hst, fun chs => ?_⟩⟩
  · unfold hMallocInfo
    rw [if_pos hn]
    rfl
  · obtain ⟨hro, rfl⟩ := r.roOk hg
    unfold hMallocInfo
    rw [if_neg (by decide), hst]
    revert chs
    refine Looks.bind (ho _ _ _) (Looks.bind (Looks.ret (a := [Piece.head])) (Looks.bind (ho _ _ _) ?_))
    exact Looks.ret
  · obtain ⟨hro, rfl⟩ := r.roOk hg
    unfold hMallocInfo
    rw [if_neg (by decide), if_pos hst]
    suffices H : Looks _ s.σ (s.tl t) { s.tl t with unsealed := false } (true, ([Piece.head] ++ heapPieces ro (binOf s.σ) (List.range' 0 ro.g.nArena) ++
        [Piece.large ro.g.nArena s.σ.largeAllocated]) ++ [.tail]) by
      rw [e0, ← List.range_eq_range', List.append_assoc ([Piece.head] ++ _)] at H
      exact H chs
    refine Looks.bind (ho .head s.σ (s.tl t)) (Looks.bind (Looks.bind Looks.unseal (Looks.bind (Looks.infoArenas ho (fun _ => rfl) ro.g.nArena 0 [.head])
      (Looks.bind (Looks.large fun _ => rfl) (Looks.bind (ho _ _ _) (Looks.bind Looks.seal (Looks.ret
        (a := [Piece.head] ++ heapPieces ro (binOf s.σ) (List.range' 0 ro.g.nArena) ++ [Piece.large ro.g.nArena s.σ.largeAllocated])))))))
      (Looks.bind (ho .tail _ _) ?_))
    exact Looks.ret

/-- What `malloc_info` writes after two allocations, with sealed metadata. -/
example : ∃ h s, Reach (exCfg true true) (exRo true true) (fun t => t % 4) true anyClient h s ∧ Quiet (fun _ => return ()) ∧
    (hMallocInfo (exRo true true) (fun _ => return ()) 0).value s 0 = some (true, [.head, .heap 0, .bin 7 112 ⟨1, 0, 4096, 112⟩, .heapEnd, .heap 1, .heapEnd,
      .heap 2, .heapEnd, .heap 3, .heapEnd, .large 4 229376, .tail]) := by
  obtain ⟨h, s, h1, h2⟩ := ex_any (stats := true) (sealed := true) (calm := true) [.call 0 (.malloc 100) 0, .call 0 (.malloc 200000) exMapAt]
    (fun h s => decide ((hMallocInfo (exRo true true) (fun _ => return ()) 0).value s 0 = some (true, [.head, .heap 0, .bin 7 112 ⟨1, 0, 4096, 112⟩, .heapEnd,
      .heap 1, .heapEnd, .heap 2, .heapEnd, .heap 3, .heapEnd, .large 4 229376, .tail])))
    (by decide +kernel)
  exact ⟨h, s, h1, fun _ _ _ => Looks.ret, decide_eq_true_eq.mp h2⟩

/-- C52 fails with sealed metadata if writing to the stream can call the allocator. Suppose writing the element of some arena ends
with the metadata sealed, as every call to the allocator does. Then `malloc_info` never returns. -/
theorem c52_malloc_info_sealed (ro : Ro) (hst : ro.g.stats = true) (hs : ro.g.sealMetadata = true) {out : Piece → Prog Unit} {a : Nat} (ha : a < ro.g.nArena)
    (ho : ∀ chs σ tl σ' tl', (out (.heap a)).run chs σ tl = .ok (σ', tl', ()) → tl'.unsealed = false) (chs : Nat → Choice) (σ : St) (tl : Tl)
    (y : St × Tl × Bool × List Piece) : (hMallocInfo ro out 0).run chs σ tl ≠ .ok y := by
  have loop : ∀ n b l chs σ tl y, b ≤ a → a < b + n → (infoArenas ro out n b l).run chs σ tl ≠ .ok y := by
    intro n
    induction n with
    | zero => intro b l chs σ tl y h1 h2; omega
    | succ n ih =>
      intro b l chs σ tl y h1 h2 he
      obtain ⟨σ1, tl1, _, k1, e1, he⟩ := run_bind_inv he
      by_cases k : a = b
      · subst k
        have hu := ho _ _ _ _ _ e1
        obtain ⟨σ2, tl2, l2, k2, e2, he⟩ := run_bind_inv he
        obtain ⟨n', hn⟩ : ∃ n', nClasses ro.g = n' + 1 := ⟨nClasses ro.g - 1, by unfold nClasses; split <;> rfl⟩
        rw [hn] at e2
        obtain ⟨σ3, tl3, l3, k3, e3, _⟩ := run_bind_inv e2
        unfold readBin critical at e3
        simp only [Prog.run] at e3
        rw [hs, hu] at e3
        cases e3
      · obtain ⟨σ2, tl2, l2, k2, e2, he⟩ := run_bind_inv he
        obtain ⟨σ3, tl3, l3, k3, e3, he⟩ := run_bind_inv he
        exact ih (b + 1) _ _ _ _ _ (by omega) (by omega) he
  intro he
  unfold hMallocInfo at he
  rw [if_neg (by decide), if_pos hst] at he
  obtain ⟨σ1, tl1, _, k1, e1, he⟩ := run_bind_inv he
  obtain ⟨σ2, tl2, l2, k2, e2, he⟩ := run_bind_inv he
  obtain ⟨σ3, tl3, l3, k3, e3, e2⟩ := run_bind_inv e2
  obtain ⟨σ4, tl4, l4, k4, e4, e2⟩ := run_bind_inv e2
  exact loop _ 0 _ _ _ _ _ (Nat.zero_le _) (by omega) e4

/-- Writing that calls `malloc` for a buffer, as for a stream in memory that has to grow. -/
example (ro : Ro) (hst : ro.g.stats = true) (hs : ro.g.sealMetadata = true) (ha : 0 < ro.g.nArena) (arena size : Nat) (chs : Nat → Choice) (σ : St) (tl : Tl)
    (y : St × Tl × Bool × List Piece) :
    (hMallocInfo ro (fun p => if p = .heap 0 then (do let _ ← hMalloc ro arena size) else return ()) 0).run chs σ tl ≠ .ok y := by
  refine c52_malloc_info_sealed ro hst hs ha (fun chs σ tl σ' tl' he => ?_) chs σ tl y
  rw [if_pos rfl] at he
  obtain ⟨σ1, tl1, p, k1, e1, he⟩ := run_bind_inv he
  cases he
  obtain ⟨σ2, tl2, _, k2, e2, e1⟩ := run_bind_inv e1
  obtain ⟨σ3, tl3, q, k3, e3, e1⟩ := run_bind_inv e1
  cases e1
  rfl

end HM
