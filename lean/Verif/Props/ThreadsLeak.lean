import Verif.ConcLeakInv
import Verif.Props.Free
import Verif.Props.Statistics
import Verif.Props.Stats
import Verif.Props.Leak
import Verif.Props.ThreadsQuarantine
/-
C57. Calls that overlap lose nothing. Whenever no call is in progress, after any interleaving of calls of any number of threads:
the allocator regards exactly the live blocks as allocated, so that every invalid free is caught and the statistics of the size
classes are exact; and if the kernel never refuses a request, everything that is mapped was mapped by the initialisation or by
others than the allocator, belongs to a live block, or waits in the quarantine of large blocks.

A fork in which a call of another thread was in progress is excluded: the child never completes this call, and what it had is lost
there.
-/
namespace HM

variable {g : Cfg} {ro : Ro} {ar : Nat → Nat} {calm : Bool} {h : List CEv} {s : CSys} {σ0 : St} {tl : Nat → Tl} {t : Nat} {chs : Nat → Choice}

/-- The system when no call is in progress: what a call that is made alone finds. -/
def CSys.alone (s : CSys) : Sys := ⟨s.σ, s.tl⟩

/-- An address in a page that is mapped. -/
def CSys.reserved (s : CSys) (y : Nat) : Prop := s.σ.vm.prot (y / 4096) ≠ .unmapped

/-- An address that can be accessed. -/
def CSys.access (s : CSys) (y : Nat) : Prop := s.σ.vm.prot (y / 4096) = .rw

theorem CReach.init_steps (r : CReach g ro ar calm h s) : ∃ (σ0 : St) (tl : Nat → Tl), Initialised g ro σ0 ∧ (∀ t : Nat, (tl t : Tl).unsealed = false) ∧ CSteps ro ar calm [] (CSys.init σ0 tl) h s :=
  r.induction (M := fun h s => ∃ (σ0 : St) (tl : Nat → Tl), Initialised g ro σ0 ∧ (∀ t : Nat, (tl t : Tl).unsealed = false) ∧ CSteps ro ar calm [] (CSys.init σ0 tl) h s)
    (fun hi htl => ⟨_, _, hi, htl, .refl⟩) fun _ st ⟨σ0, tl, h1, h2, h3⟩ => ⟨σ0, tl, h1, h2, h3.tail st⟩

/-- When no call is in progress, the state is like those between calls that follow one another. -/
theorem CSteps.quiet (hg : Good g ar) (hi : Initialised g ro σ0) (htl : ∀ t, (tl t).unsealed = false) (r : CSteps ro ar calm [] (CSys.init σ0 tl) h s)
    (hq : quietForks h) (hb : busy h = []) : ∃ n0 w, CInv ro calm n0 h s w ∧ Linked ro (hold h).live w ∧ (∀ t, (s.tl t).unsealed = false) ∧
      (calm = true → Covers g (fun pg => σ0.vm.prot pg ≠ .unmapped ∨ cforeign h pg = true) noPage noPage s.σ) ∧ (allPlain h → w.G.untracked = 0) := by
  have hcfg : ro.g = g := hi.post.cfg
  obtain ⟨n0, w, A, i, a⟩ := r.acc hg hi htl hq
  have hidle : ∀ u, s.run u = none := by
    intro u
    cases e : s.run u with
    | none => rfl
    | some x =>
      have := ((CSteps.reach' hi htl r).busy u x.1).mpr ⟨x.2, e⟩
      rw [hb] at this; cases this
  have hthr : ∀ p u, w.G.blk p ≠ .thr u := by
    intro p u
    cases u with
    | zero => exact a.zero p
    | succ u => exact fun hp => (a.idle u (hidle u)).B p ((a.ok u).B p hp)
  refine ⟨n0, w, i, ⟨i.inv, i.stat, fun p => ?_, fun p => ?_, i.sized⟩, fun u => i.tl u (hidle u), fun hcalm pg hp => ?_, a.plain⟩
  · rw [← i.app p]
    cases e : w.G.blk p with
    | nobody => simp
    | app => simp
    | thr u => exact absurd e (hthr p u)
  · cases e : w.G.eff p with
    | none => rfl
    | some n => obtain ⟨⟨u, hu⟩, _⟩ := i.inv.eff p n e; exact absurd hu (hthr p u)
  · rw [← i.σ] at hp
    rcases a.cov hcalm pg hp with k | ⟨q, k1, k2, k3⟩ | k | ⟨u, k⟩
    · exact Or.inl k
    · exact Or.inr (Or.inl ⟨q, i.σ ▸ k1, id, k3⟩)
    · exact Or.inr (Or.inr (Or.inl (by rw [← i.σ, ← hcfg]; exact k)))
    · exact absurd k ((a.idle u (hidle u)).H hcalm pg)

theorem CReach.quiet (hg : Good g ar) (r : CReach g ro ar calm h s) (hq : quietForks h) (hb : HM.busy h = []) :
    ∃ n0 w, CInv ro calm n0 h s w ∧ Linked ro (hold h).live w ∧ (∀ t, (s.tl t).unsealed = false) ∧ (allPlain h → w.G.untracked = 0) := by
  obtain ⟨σ0, tl, hi, htl, st⟩ := r.init_steps
  obtain ⟨n0, w, h1, h2, h3, _, h4⟩ := st.quiet hg hi htl hq hb
  exact ⟨n0, w, h1, h2, h3, h4⟩

/-- What a call made alone does when no other call is in progress. -/
theorem CReach.alone (hg : Good g ar) (r : CReach g ro ar calm h s) (hq : quietForks h) (hb : HM.busy h = []) (t : Nat) {c : Call} (hok : c.Ok)
    (he : ∀ n, Env calm (chs n)) : ∃ w, w.σ = s.σ ∧ Linked ro (hold h).live w ∧ (allPlain h → w.G.untracked = 0) ∧
      CallSpec ro ar (hold h).live w s.alone t c chs (s.alone.call ro ar t c chs) := by
  obtain ⟨hro, eg⟩ := r.roOk hg
  obtain ⟨n0, w, h1, h2, h3, h4⟩ := r.quiet hg hq hb
  have e := h1.env
  refine ⟨w, h1.σ, h2, h4, Sys.call_spec hro h2 h1.σ (h3 t) (by rw [eg]; exact hg.arena t) hok (fun n => ?_) fun n b hb => ?_⟩
  · rw [show w.G.calm = calm from congrArg Prod.fst e]; exact he n
  · rw [show w.G.tags = none from congrArg Prod.snd e] at hb; cases hb

/-! ### Blocks -/

/-- C57. Whenever no call is in progress, `free`, `free_sized` and `malloc_usable_size` of a pointer that is not NULL and not the
address of a live block abort. -/
theorem c57_invalid_detected_partial (hg : Good g ar) (r : CReach g ro ar calm h s) (hq : quietForks h) (hb : busy h = []) (he : ∀ n, Env calm (chs n)) {p n : Nat}
    (hp : p < W64) (hn : n < W64) (h0 : p ≠ 0) (hl : (hold h).live p = none) {c : Call} (hc : c = .free p ∨ c = .freeSized p n ∨ c = .usableSize p) :
    ∃ m, s.alone.call ro ar t c chs = .fatal m := by
  have hok : c.Ok := by
    rcases hc with rfl | rfl | rfl
    · exact hp
    · exact ⟨hp, hn⟩
    · exact hp
  obtain ⟨w, -, l, -, h1⟩ := r.alone hg hq hb t hok he
  cases hx : s.alone.call ro ar t c chs with
  | fatal m => exact ⟨m, rfl⟩
  | ok x =>
    exfalso
    obtain ⟨s', x⟩ := x
    rw [hx] at h1
    obtain ⟨w', _, _, h2, _⟩ := h1
    rcases hc with rfl | rfl | rfl
    · obtain ⟨_, ⟨h2, _⟩ | ⟨_, _, ⟨_, h2⟩ | ⟨_, h2⟩⟩⟩ := h2
      · exact absurd h2 h0
      · exact absurd h2.mine (not_mine l hl)
      · exact absurd h2.mine (not_mine l hl)
    · obtain ⟨_, ⟨h2, _⟩ | ⟨_, ⟨_, h2⟩ | ⟨_, h2⟩⟩⟩ := h2
      · exact absurd h2 h0
      · exact absurd h2.mine (not_mine l hl)
      · exact absurd h2.mine (not_mine l hl)
    · obtain ⟨u, _, _, _, ⟨h2, _⟩ | ⟨_, h2, _⟩⟩ := h2
      · exact absurd h2 h0
      · exact absurd h2 (not_mine l hl)
  | segv => rw [hx] at h1; obtain ⟨n, w1, _, ⟨p, e, _⟩ | ⟨p, n, e, _⟩⟩ := h1 <;> subst e <;> simp at hc
  | ub m => rw [hx] at h1; obtain ⟨n, w1, _, ⟨p, e, _⟩ | ⟨p, n, _, _, e, _⟩⟩ := h1 <;> subst e <;> simp at hc
  | hang => rw [hx] at h1; obtain ⟨n, w1, _, ⟨p, e, _⟩⟩ := h1; subst e; simp at hc

/-- C57. Whenever no call is in progress, what is recorded as a large block is a live block, and the other way round for blocks outside
of the slab region. -/
theorem c57_large_blocks_partial (hg : Good g ar) (r : CReach g ro ar calm h s) (hq : quietForks h) (hb : busy h = []) {p : Nat} :
    (∃ u gd, s.σ.rt.Has ⟨p, u, gd⟩) ↔ ((hold h).live p).isSome ∧ ¬ (ro.slabStart ≤ p ∧ p < ro.slabEnd) := by
  obtain ⟨hro, eg⟩ := r.roOk hg
  obtain ⟨n0, w, h1, l, h3, -⟩ := r.quiet hg hq hb
  rw [← h1.σ]
  constructor
  · rintro ⟨u, gd, hh⟩
    refine ⟨(l.blk p).mp ((l.inv.blk p).mpr (Or.inr ⟨u, gd, hh⟩)), fun hc => ?_⟩
    have hns := has_not_inSlab hro l.inv hh
    rw [Ro.inSlab, decide_eq_true hc.1, decide_eq_true hc.2] at hns; cases hns
  · rintro ⟨k1, k2⟩
    rcases (l.inv.blk p).mp ((l.blk p).mpr k1) with ⟨a, c, i, k, hs⟩ | ⟨u, gd, hh⟩
    · have := hs.inSlab hro l.inv
      rw [Ro.inSlab, Bool.and_eq_true, decide_eq_true_eq, decide_eq_true_eq] at this
      exact absurd this.symm k2
    · exact ⟨u, gd, hh⟩

/-- C57. Whenever no call is in progress, the statistics of a size class are exact: the bytes reported as allocated are those of its live
blocks `S`, and the blocks ever allocated there less those ever released are the live blocks (modulo 2^64). -/
theorem c57_class_statistics_partial (hg : Good g ar) (r : CReach g ro ar calm h s) (hq : quietForks h) (hb : busy h = []) (hst : g.stats = true) {a c : Nat}
    (ha : a < g.nArena) (hc : c < nClasses g) : ∃ S : Finset Nat, (∀ p, p ∈ S ↔ ((hold h).live p).isSome ∧ ro.area a c p) ∧
      (s.σ.sc a c).allocated = g.slotSize c * S.card ∧ (s.σ.sc a c).nmalloc % 2 ^ 64 = ((s.σ.sc a c).ndalloc + S.card) % 2 ^ 64 := by
  obtain ⟨hro, rfl⟩ := r.roOk hg
  obtain ⟨n0, w, h1, l, h3, -⟩ := r.quiet hg hq hb
  obtain ⟨S, k1, k2⟩ := l.liveSet hro ha hc
  obtain ⟨_, ex⟩ := l.exact hro hst
  obtain ⟨-, e2, -⟩ := ex a c ha hc
  obtain ⟨-, st1, st2⟩ := l.stat.small hst a c ha hc
  rw [h1.σ] at e2 st1 st2 k2
  refine ⟨S, k1, by rw [k2]; exact e2, ?_⟩
  rw [st1, st2, k2]
  show _ % W64 % W64 = (_ % W64 + _) % W64
  omega

/-- C57. Whenever no call is in progress, `h_mallinfo_arena_info` reports for each arena the bytes in its live small blocks. -/
theorem c57_arena_partial (hg : Good g ar) (r : CReach g ro ar calm h s) (hq : quietForks h) (hb : busy h = []) (hst : g.stats = true) {a : Nat} (ha : a < g.nArena) :
    ∃ (S : Nat → Finset Nat) (slabs : Nat), (∀ c, c < nClasses g → ∀ p, p ∈ S c ↔ ((hold h).live p).isSome ∧ ro.area a c p) ∧
      ∀ chs, (hArenaInfo ro a).run chs s.σ (s.tl t) = .ok (s.σ, s.tl t, ⟨slabs, 0, ∑ c ∈ Finset.range (nClasses g), g.slotSize c * (S c).card⟩) := by
  obtain ⟨hro, rfl⟩ := r.roOk hg
  have h0 : ∀ c, ∃ S : Finset Nat, (c < nClasses ro.g → ∀ p, p ∈ S ↔ ((hold h).live p).isSome ∧ ro.area a c p) ∧
      (c < nClasses ro.g → (s.σ.sc a c).allocated = ro.g.slotSize c * S.card) := by
    intro c
    by_cases hc : c < nClasses ro.g
    · obtain ⟨S, q1, q2, -⟩ := c57_class_statistics_partial hg r hq hb hst ha hc
      exact ⟨S, fun _ => q1, fun _ => q2⟩
    · exact ⟨∅, fun h => absurd h hc, fun h => absurd h hc⟩
  choose S h1 h2 using h0
  obtain ⟨n0, w, k1, l, k3, -⟩ := r.quiet hg hq hb
  refine ⟨S, ∑ c ∈ Finset.range (nClasses ro.g), (s.σ.sc a c).slabAllocated, h1, fun chs => ?_⟩
  have := l.arena hro hst ha (tl := s.tl t) (by rw [← k3 t]) chs
  rw [k1.σ] at this
  rw [this]
  have e : ∑ c ∈ Finset.range (nClasses ro.g), (s.σ.sc a c).allocated = ∑ c ∈ Finset.range (nClasses ro.g), ro.g.slotSize c * (S c).card :=
    Finset.sum_congr rfl fun c hc => h2 c (Finset.mem_range.mp hc)
  rw [e]

/-- C57. Whenever no call is in progress and no call so far asked for an alignment of more than a page, what `mallinfo` then reports as
allocated is exactly the sum of the sizes of all live blocks (as in C29). -/
theorem c57_allocated_partial (hg : Good g ar) (r : CReach g ro ar calm h s) (hq : quietForks h) (hb : busy h = []) (hp : allPlain h) (he : ∀ n, Env calm (chs n))
    (hst : g.stats = true) {s' : Sys} {m : MallInfo} (hc : s.alone.call ro ar t .mallinfo chs = .ok (s', .info m)) :
    ∃ (B : Finset Nat) (size : Nat → Nat), (∀ p, p ∈ B ↔ ((hold h).live p).isSome) ∧
      (∀ p ∈ B, (∃ a c, a < g.nArena ∧ c < nClasses g ∧ ro.area a c p ∧ size p = g.slotSize c) ∨
        (¬ (ro.slabStart ≤ p ∧ p < ro.slabEnd) ∧ Usable ro s.σ p (size p))) ∧
      m.uordblks = ∑ p ∈ B, size p := by
  obtain ⟨hro, rfl⟩ := r.roOk hg
  obtain ⟨w, e, l, hz, h1⟩ := r.alone hg hq hb t (c := .mallinfo) trivial he
  rw [hc] at h1
  obtain ⟨w', -, -, h2, -⟩ := h1
  rw [← e]
  exact l.allocated hro (l.mallinfo_is hro hst (hz hp) h2).1

/-- C57. In the same situation, what `mallinfo` reports as mapped is the sum of the sizes of the live blocks outside of the slab region and
of the slabs in use (as in C29). -/
theorem c57_mapped_partial (hg : Good g ar) (r : CReach g ro ar calm h s) (hq : quietForks h) (hb : busy h = []) (hp : allPlain h) (he : ∀ n, Env calm (chs n))
    (hst : g.stats = true) {s' : Sys} {m : MallInfo} (hc : s.alone.call ro ar t .mallinfo chs = .ok (s', .info m)) :
    m.uordblks ≤ m.hblkhd ∧ m.fordblks = m.hblkhd - m.uordblks ∧ m.usmblks = m.hblkhd ∧
    ∃ (B : Finset Nat) (size : Nat → Nat) (S : Finset (Nat × Nat × Nat)),
      (∀ p, p ∈ B ↔ ((hold h).live p).isSome ∧ ¬ (ro.slabStart ≤ p ∧ p < ro.slabEnd)) ∧ (∀ p ∈ B, Usable ro s.σ p (size p)) ∧
      (∀ a c i, (a, c, i) ∈ S → a < g.nArena ∧ c < nClasses g) ∧
      (∀ a c x, a < g.nArena → 0 < c → c < nClasses g → ro.area a c x → (s.access x ↔ (a, c, ro.slabNo a c x) ∈ S)) ∧
      (∀ a c p, a < g.nArena → c < nClasses g → ro.area a c p → ((hold h).live p).isSome → (a, c, ro.slabNo a c p) ∈ S) ∧
      m.hblkhd = ∑ p ∈ B, size p + ∑ x ∈ S, g.slabSize x.2.1 := by
  obtain ⟨hro, rfl⟩ := r.roOk hg
  obtain ⟨w, e, l, hz, h1⟩ := r.alone hg hq hb t (c := .mallinfo) trivial he
  rw [hc] at h1
  obtain ⟨w', -, -, h2, -⟩ := h1
  obtain ⟨_, h3, h4, h5, h6⟩ := l.mallinfo_is hro hst (hz hp) h2
  refine ⟨h4, h5, h6, ?_⟩
  unfold CSys.access
  rw [← e]
  exact l.mapped hro h3

/-! ### Pages -/

/-- C57. Suppose no call is in progress and the kernel has refused nothing. A page that is mapped, and not by others, was mapped by the
initialisation, or belongs to a live block outside of the slab region or to its guards (the table of large blocks records block `p`
with `u` usable bytes and guards of `gd` bytes), or is in the quarantine for large blocks. -/
theorem c57_accounted (hg : Good g ar) (hi : Initialised g ro σ0) (htl : ∀ t, (tl t).unsealed = false)
    (r : CSteps ro ar true [] (CSys.init σ0 tl) h s) (hq : quietForks h) (hb : busy h = []) {y : Nat} (hf : cforeign h (y / 4096) = false) (hy : s.reserved y) :
    (CSys.init σ0 tl).reserved y ∨
    (∃ p u gd, ((hold h).live p).isSome ∧ ¬ (ro.slabStart ≤ p ∧ p < ro.slabEnd) ∧ Usable ro s.σ p u ∧ s.σ.rt.Has ⟨p, u, gd⟩ ∧
      p - gd ≤ y ∧ y < p + pageUp u + gd) ∨
    InRegionQ g s.σ (y / 4096) := by
  have hro := hi.roOk hg.valid hg.freeQ
  obtain ⟨n0, w, i, l, -, hc, -⟩ := r.quiet hg hi htl hq hb
  rcases hc rfl _ hy with (k | k) | ⟨q, hq, -, k⟩ | k | k
  · exact Or.inl k
  · rw [hf] at k; cases k
  · refine Or.inr (Or.inl ?_)
    have hq' : w.σ.rt.Has q := by rw [i.σ]; exact hq
    have hok := l.inv.reg q hq'
    have hl : ((hold h).live q.p).isSome = true := (l.blk q.p).mp ((l.inv.blk q.p).mpr (Or.inr ⟨q.size, q.guard, hq'⟩))
    have hns := has_not_inSlab hro l.inv (p := q.p) (s := q.size) (g := q.guard) hq'
    refine ⟨q.p, q.size, q.guard, hl, fun hc => ?_, ?_, hq, ?_, ?_⟩
    · rw [Ro.inSlab, decide_eq_true hc.1, decide_eq_true hc.2] at hns; cases hns
    · exact (i.usable_iff hro hl).mpr (Or.inr ⟨q.guard, hq'⟩)
    · have := hok.pmod; have := hok.gmod; have := hok.lo
      unfold RegionMeta.pages inPages at k
      omega
    · have := hok.pmod; have := hok.gmod; have := hok.lo
      unfold RegionMeta.pages inPages at k
      unfold pageUp
      omega
  · exact Or.inr (Or.inr k)
  · exact k.elim

/-- C57. In the same situation, every byte that can be accessed is in a page mapped by others, was mapped by the initialisation (this
includes the slab region) or is in a page of a live block outside of the slab region. -/
theorem c57_accessible (hg : Good g ar) (hi : Initialised g ro σ0) (htl : ∀ t, (tl t).unsealed = false)
    (r : CSteps ro ar true [] (CSys.init σ0 tl) h s) (hq : quietForks h) (hb : busy h = []) {y : Nat} (hf : cforeign h (y / 4096) = false) (hy : s.access y) :
    (CSys.init σ0 tl).reserved y ∨
    ∃ p u, ((hold h).live p).isSome ∧ ¬ (ro.slabStart ≤ p ∧ p < ro.slabEnd) ∧ Usable ro s.σ p u ∧ p ≤ y ∧ y < p + pageUp u := by
  have hcfg : ro.g = g := hi.post.cfg
  obtain ⟨n0, w, i, l, -, -, -⟩ := r.quiet hg hi htl hq hb
  have hrw : w.σ.vm.prot (y / PAGE) = .rw := by rw [i.σ]; exact hy
  rcases c57_accounted hg hi htl r hq hb hf (show s.reserved y by unfold CSys.reserved; rw [hy]; simp) with k | ⟨p, u, gd, k1, k2, k3, k4, k5, k6⟩ | k
  · exact Or.inl k
  · right
    rw [← i.σ] at k4
    have hok := l.inv.reg _ k4
    have q1 := hok.pmod; have q2 := hok.gmod; have q3 := hok.lo
    simp only at q1 q2 q3
    refine ⟨p, u, k1, k2, k3, ?_, ?_⟩
    · by_contra hc
      have := l.inv.regLo _ (y / PAGE) k4 (by unfold inPages; simp only; omega)
      rw [hrw] at this; cases this
    · by_contra hc
      have := l.inv.regHi _ (y / PAGE) k4 (by rw [l.effSize]; unfold inPages; simp only; unfold pageUp at *; omega)
      rw [hrw] at this; cases this
  · exfalso
    have hq := l.inv.qprot (congrArg Prod.fst i.env) (y / PAGE)
    rcases k with ⟨j, k1, k2, k3⟩ | ⟨j, k1, k2, k3⟩
    · refine hq j (Or.inl ((l.inv.qrOwn _ j).mpr ?_)) hrw
      rw [hcfg, i.σ]; exact ⟨k1, k2, k3⟩
    · refine hq j (Or.inr ((l.inv.qqOwn _ j).mpr ?_)) hrw
      rw [hcfg, i.σ]; exact ⟨k1, k2, k3⟩

/-- C57. In the same situation, without a quarantine for large blocks, once no block outside of the slab region is live, nothing is mapped
that was not mapped by the initialisation or by others. -/
theorem c57_all_returned (hg : Good g ar) (hi : Initialised g ro σ0) (htl : ∀ t, (tl t).unsealed = false)
    (r : CSteps ro ar true [] (CSys.init σ0 tl) h s) (hq : quietForks h) (hb : busy h = []) (h1 : g.regionQRandom = 0) (h2 : g.regionQQueue = 0)
    (hl : ∀ p, ((hold h).live p).isSome → ro.slabStart ≤ p ∧ p < ro.slabEnd) {y : Nat} (hf : cforeign h (y / 4096) = false) (hy : s.reserved y) :
    (CSys.init σ0 tl).reserved y := by
  rcases c57_accounted hg hi htl r hq hb hf hy with k | ⟨p, u, gd, k1, k2, -⟩ | ⟨i, k, -⟩ | ⟨i, k, -⟩
  · exact k
  · exact absurd (hl p k1) k2
  · omega
  · omega

/-! ### Examples -/

/-- The initial state of the examples. -/
def leakC : CSys := CSys.init exSt fun _ => ⟨0, false⟩

theorem leak_conc {q : Bool} {as : List ExC} {h : List CEv} {s : CSys} (e : runC (leakRo q) (fun t => t % 4) as [] leakC = some (h, s))
    (ok : ∀ a ∈ as, ∃ t, (∃ c b, a = .inv t c b) ∨ (∃ n x, a = .go t n x) ∨ a = .ret t) :
    CSteps (leakRo q) (fun t => t % 4) true [] leakC h s := runC_steps e ok

/-- A call for a large block overlaps two calls for small blocks. Afterwards no call is in progress, three blocks are live, and memory is mapped that
was not mapped by the initialisation. -/
example : ∃ h s, CSteps (leakRo true) (fun t => t % 4) true [] leakC h s ∧ quietForks h ∧ busy h = [] ∧ ((hold h).live exBig).isSome ∧
    ((hold h).live exA).isSome ∧ ((hold h).live 4947802329088).isSome ∧ s.reserved exBig ∧ s.access exBig ∧ ¬ leakC.reserved exBig ∧
    cforeign h (exBig / 4096) = false := by
  have key : ((runC (leakRo true) (fun t => t % 4) [.inv 0 (.malloc 200000) 0, .go 0 3 exMapAt, .inv 1 (.malloc 100) 0, .go 1 2 0, .go 0 1 0, .inv 4 (.malloc 100) 0, .go 4 99 0,
      .go 1 99 0, .ret 1, .ret 4, .go 0 99 exMapAt, .ret 0] [] leakC).any fun x =>
      decide (x.1 = [.ret 0 (.malloc 200000) (.ptr exBig), .ret 4 (.malloc 100) (.ptr exA), .ret 1 (.malloc 100) (.ptr 4947802329088), .inv 4 (.malloc 100) 0, .inv 1 (.malloc 100) 0,
        .inv 0 (.malloc 200000) 0]) &&
      decide (x.2.σ.vm.prot (exBig / 4096) = .rw) && decide (leakC.σ.vm.prot (exBig / 4096) = .unmapped)) = true := by decide +kernel
  rw [Option.any_eq_true] at key
  obtain ⟨⟨h, s⟩, k1, k2⟩ := key
  simp only [Bool.and_eq_true, decide_eq_true_eq] at k2
  obtain ⟨⟨rfl, k3⟩, k4⟩ := k2
  exact ⟨_, s, leak_conc k1 (by simp), by simp [quietForks], by decide, by decide +kernel, by decide +kernel, by decide +kernel,
    by unfold CSys.reserved; rw [k3]; simp, k3, fun k => k k4, rfl⟩

/-- Without quarantine: a large block that thread 1 frees while thread 2 allocates has been returned afterwards, and no large block is live. -/
example : ∃ h s, CSteps (leakRo false) (fun t => t % 4) true [] leakC h s ∧ quietForks h ∧ busy h = [] ∧
    (∀ p, ((hold h).live p).isSome → (leakRo false).slabStart ≤ p ∧ p < (leakRo false).slabEnd) ∧ (leakCfg false).regionQRandom = 0 ∧ (leakCfg false).regionQQueue = 0 ∧
    ¬ s.reserved exBig ∧ .ret 0 (.malloc 200000) (.ptr exBig) ∈ h := by
  have key : ((runC (leakRo false) (fun t => t % 4) [.inv 0 (.malloc 200000) 0, .go 0 99 exMapAt, .ret 0, .inv 1 (.free exBig) exBig, .go 1 3 0, .inv 4 (.malloc 100) 0, .go 4 3 0,
      .go 1 99 0, .ret 1, .go 4 99 0, .ret 4] [] leakC).any fun x =>
      decide (x.1 = [.ret 4 (.malloc 100) (.ptr exA), .ret 1 (.free exBig) .unit, .inv 4 (.malloc 100) 0, .inv 1 (.free exBig) exBig,
        .ret 0 (.malloc 200000) (.ptr exBig), .inv 0 (.malloc 200000) 0]) && decide (x.2.σ.vm.prot (exBig / 4096) = .unmapped)) = true := by decide +kernel
  rw [Option.any_eq_true] at key
  obtain ⟨⟨h, s⟩, k1, k2⟩ := key
  simp only [Bool.and_eq_true, decide_eq_true_eq] at k2
  obtain ⟨rfl, k3⟩ := k2
  refine ⟨_, s, leak_conc k1 (by simp), by simp [quietForks], by decide, fun p hp => ?_, rfl, rfl, fun k => k k3, by simp⟩
  by_cases e : p = exA
  · subst e; decide +kernel
  · exfalso
    have : (hold [.ret 4 (.malloc 100) (.ptr exA), .ret 1 (.free exBig) .unit, .inv 4 (.malloc 100) 0, .inv 1 (.free exBig) exBig,
        .ret 0 (.malloc 200000) (.ptr exBig), .inv 0 (.malloc 200000) 0]).live p = (if p = exA then some ⟨100, none⟩ else
        if p = 0 then none else if p = exBig then none else if p = exBig then some ⟨200000, none⟩ else if p = 0 then none else none) := rfl
    rw [this, if_neg e] at hp
    by_cases e0 : p = 0
    · rw [if_pos e0] at hp; cases hp
    · rw [if_neg e0] at hp
      by_cases e1 : p = exBig
      · rw [if_pos e1] at hp; cases hp
      · rw [if_neg e1, if_neg e1, if_neg e0] at hp; cases hp

/-- With statistics: thread 1 frees a block while thread 0 allocates another one of this class; in between thread 0 forked when no call was in progress. -/
example : ∃ h s, CReach (exCfg true false) (exRo true false) (fun t => t % 4) true h s ∧ quietForks h ∧ busy h = [] ∧ (exCfg true false).stats = true ∧
    ((hold h).live exB).isSome ∧ (hold h).live exA = none ∧ .fork 0 ∈ h ∧ (∃ c, c < nClasses (exCfg true false) ∧ (exRo true false).area 0 c exB ∧ (s.σ.sc 0 c).allocated = (exCfg true false).slotSize c) := by
  have key : ((exRunC true false [.inv 0 (.malloc 100) 0, .go 0 99 0, .ret 0, .fork 0, .inv 1 (.free exA) exA, .go 1 1 0, .inv 0 (.malloc 100) 0, .go 0 99 0, .go 1 99 0, .ret 1, .ret 0]).any fun x =>
      decide (x.1 = [.ret 0 (.malloc 100) (.ptr exB), .ret 1 (.free exA) .unit, .inv 0 (.malloc 100) 0, .inv 1 (.free exA) exA, .fork 0, .ret 0 (.malloc 100) (.ptr exA), .inv 0 (.malloc 100) 0]) &&
      decide ((x.2.σ.sc 0 7).allocated = (exCfg true false).slotSize 7)) = true := by decide +kernel
  rw [Option.any_eq_true] at key
  obtain ⟨⟨h, s⟩, k1, k2⟩ := key
  simp only [Bool.and_eq_true, decide_eq_true_eq] at k2
  obtain ⟨rfl, k3⟩ := k2
  exact ⟨_, s, runC_reach (.init (exInit true false) fun _ => rfl) k1, ⟨by decide, trivial⟩, by decide, rfl, by decide +kernel, by decide +kernel, by simp, 7, by decide, by unfold Ro.area; decide +kernel, k3⟩

/-- With statistics: while thread 0 allocates a large block, thread 1 allocates a small one and thread 4 an aligned one. Then no call is in progress, and this is
what `mallinfo` reports. -/
example : ∃ h s, CReach (exCfg true false) (exRo true false) (fun t => t % 4) true h s ∧ quietForks h ∧ busy h = [] ∧ allPlain h ∧ (exCfg true false).stats = true ∧
    ((hold h).live exBig).isSome ∧ ∃ chs s' m, (∀ n, Env true (chs n)) ∧ s.alone.call (exRo true false) (fun t => t % 4) 0 .mallinfo chs = .ok (s', .info m) ∧
      m.uordblks = 112 + 64 + 229376 ∧ m.hblkhd = 4096 + 4096 + 229376 := by
  have key : ((exRunC true false [.inv 0 (.malloc 200000) 0, .go 0 3 exMapAt, .inv 1 (.malloc 100) 0, .go 1 2 0, .go 0 1 0, .inv 4 (.alignedAlloc 64 40) 0, .go 4 99 0,
      .go 1 99 0, .ret 1, .ret 4, .go 0 99 exMapAt, .ret 0]).any fun x =>
      (match x.1 with | [.ret 0 (.malloc 200000) (.ptr q), .ret 4 (.alignedAlloc 64 40) (.ptr _), .ret 1 (.malloc 100) (.ptr _), .inv 4 (.alignedAlloc 64 40) 0, .inv 1 (.malloc 100) 0,
        .inv 0 (.malloc 200000) 0] => decide (q = exBig) | _ => false) &&
      match x.2.alone.call (exRo true false) (fun t => t % 4) 0 .mallinfo (fun _ => exAt 0) with
      | .ok (_, .info m) => decide (m.uordblks = 112 + 64 + 229376 ∧ m.hblkhd = 4096 + 4096 + 229376)
      | _ => false) = true := by decide +kernel
  rw [Option.any_eq_true] at key
  obtain ⟨⟨h, s⟩, k1, k2⟩ := key
  simp only [Bool.and_eq_true] at k2
  obtain ⟨q1, q2⟩ := k2
  split at q1
  · rename_i q p1 p2
    rw [decide_eq_true_eq] at q1
    subst q1
    refine ⟨_, s, runC_reach (.init (exInit true false) fun _ => rfl) k1, by simp [quietForks], by simp [busy], ?_, rfl, rfl, fun _ => exAt 0, ?_⟩
    · intro t c b hm
      simp only [List.mem_cons, reduceCtorEq, false_or, List.not_mem_nil, or_false, CEv.inv.injEq] at hm
      rcases hm with ⟨_, rfl, _⟩ | ⟨_, rfl, _⟩ | ⟨_, rfl, _⟩ <;> simp [Call.Plain]
    · split at q2
      · rename_i s1 m e
        rw [decide_eq_true_eq] at q2
        exact ⟨s1, m, fun _ => exAt_env true 0, e, q2⟩
      · cases q2
  · cases q1

/-- Without the hypothesis on forks C57 fails: thread 1 forks while thread 0 is allocating a large block. In the child no call is in progress, and the mapping of
this block remains, although there is no such block and it is not in quarantine. -/
theorem c57_fork_loses : ∃ h s, CSteps (leakRo true) (fun t => t % 4) true [] leakC h s ∧ busy h = [] ∧ (∀ p, (hold h).live p = none) ∧
    s.access exBig ∧ ¬ leakC.reserved exBig ∧ cforeign h (exBig / 4096) = false ∧ ¬ InRegionQ (leakCfg true) s.σ (exBig / 4096) := by
  have key : ((runC (leakRo true) (fun t => t % 4) [.inv 0 (.malloc 200000) 0, .go 0 4 exMapAt] [] leakC).any fun x =>
      decide (x.1 = [.inv 0 (.malloc 200000) 0]) && decide (x.2.σ.vm.prot (exBig / 4096) = .rw) && decide (leakC.σ.vm.prot (exBig / 4096) = .unmapped) && (x.2.run 1).isNone &&
      (List.range 256).all (fun i => decide ((x.2.σ.qr i).1 = 0)) && (List.range 1024).all (fun i => decide ((x.2.σ.qq i).1 = 0))) = true := by decide +kernel
  rw [Option.any_eq_true] at key
  obtain ⟨⟨h, s⟩, k1, k2⟩ := key
  simp only [Bool.and_eq_true, decide_eq_true_eq, Option.isNone_iff_eq_none, List.all_eq_true, List.mem_range] at k2
  obtain ⟨⟨⟨⟨⟨rfl, k3⟩, k4⟩, k5⟩, k6⟩, k7⟩ := k2
  refine ⟨_, _, (leak_conc k1 (by simp)).tail (.fork 1 k5), rfl, fun p => ?_, k3, fun k => k k4, rfl, ?_⟩
  · show (if p = 0 then none else none) = none
    split <;> rfl
  · rintro (⟨i, h1, h2, -⟩ | ⟨i, h1, h2, -⟩)
    · exact h2 (k6 i h1)
    · exact h2 (k7 i h1)

end HM
