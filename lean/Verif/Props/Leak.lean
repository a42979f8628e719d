import Verif.Leak
import Verif.Facts
import Verif.Example
import Verif.Props.Quarantine
/-
C49. Address space is not lost: if the kernel never refuses a request, everything that is mapped was mapped by the
initialisation or by others than the allocator, belongs to a live block, or waits in the quarantine of large blocks. For
every application and any number of threads; calls follow one another.
-/
namespace HM

variable {g : Cfg} {ro : Ro} {ar : Nat → Nat} {D : Client} {h : List Ev} {s : Sys} {σ0 : St} {tl : Nat → Tl}

/-- C49. A page that is mapped, and not by others, was mapped by the initialisation, or belongs to a live block outside of the slab region or
to its guards (the table of large blocks records block `p` with `u` usable bytes and guards of `gd` bytes), or is in the
quarantine for large blocks. -/
theorem c49_accounted (hg : Good g ar) (hi : Initialised g ro σ0) (htl : ∀ t, (tl t).unsealed = false)
    (r : Steps ro ar true D [] ⟨σ0, tl⟩ h s) {y : Nat} (hf : foreign h (y / 4096) = false) (hy : s.reserved y) :
    (⟨σ0, tl⟩ : Sys).reserved y ∨
    (∃ p u gd, (live h p).isSome ∧ ¬ (ro.slabStart ≤ p ∧ p < ro.slabEnd) ∧ Usable ro s.σ p u ∧ s.σ.rt.Has ⟨p, u, gd⟩ ∧
      p - gd ≤ y ∧ y < p + pageUp u + gd) ∨
    InRegionQ g s.σ (y / 4096) := by
  have hro := hi.roOk hg.valid hg.freeQ
  have hcfg : ro.g = g := hi.post.cfg
  obtain ⟨w, f, _⟩ := r.fits hro (fun t => by rw [hcfg]; exact hg.arena t) (fits_init (ar := ar) hg hi htl true).1
  rw [List.append_nil] at f
  rcases cov_steps hg hi htl r _ hy with (k | k) | ⟨q, hq, -, k⟩ | k | k
  · exact Or.inl k
  · rw [hf] at k; cases k
  · refine Or.inr (Or.inl ?_)
    have hq' : w.σ.rt.Has q := by rw [f.σ]; exact hq
    have hok := f.linked.inv.reg q hq'
    have hl : (live h q.p).isSome = true := (f.linked.blk q.p).mp ((f.linked.inv.blk q.p).mpr (Or.inr ⟨q.size, q.guard, hq'⟩))
    have hns := has_not_inSlab hro f.linked.inv (p := q.p) (s := q.size) (g := q.guard) hq'
    refine ⟨q.p, q.size, q.guard, hl, fun hc => ?_, ?_, hq, ?_, ?_⟩
    · rw [Ro.inSlab, decide_eq_true hc.1, decide_eq_true hc.2] at hns; cases hns
    · rw [← f.σ]
      refine usable_complete hro f.linked hl (Or.inr ⟨q.guard, hq'⟩) ?_
      rintro ⟨-, a, c, i, k, hs, -⟩
      have := hs.inSlab hro f.linked.inv
      rw [hns] at this; cases this
    · have := hok.pmod; have := hok.gmod; have := hok.lo
      unfold RegionMeta.pages inPages at k
      omega
    · have := hok.pmod; have := hok.gmod; have := hok.lo
      unfold RegionMeta.pages inPages at k
      unfold pageUp
      omega
  · exact Or.inr (Or.inr k)
  · exact k.elim

/-- C49. Every byte that can be accessed is in a page mapped by others, was mapped by the initialisation (this includes the slab region) or is in a page
of a live block outside of the slab region. -/
theorem c49_accessible (hg : Good g ar) (hi : Initialised g ro σ0) (htl : ∀ t, (tl t).unsealed = false)
    (r : Steps ro ar true D [] ⟨σ0, tl⟩ h s) {y : Nat} (hf : foreign h (y / 4096) = false) (hy : s.access y) :
    (⟨σ0, tl⟩ : Sys).reserved y ∨
    ∃ p u, (live h p).isSome ∧ ¬ (ro.slabStart ≤ p ∧ p < ro.slabEnd) ∧ Usable ro s.σ p u ∧ p ≤ y ∧ y < p + pageUp u := by
  have hro := hi.roOk hg.valid hg.freeQ
  have hcfg : ro.g = g := hi.post.cfg
  obtain ⟨w, f, _⟩ := r.fits hro (fun t => by rw [hcfg]; exact hg.arena t) (fits_init (ar := ar) hg hi htl true).1
  rw [List.append_nil] at f
  have hrw : w.σ.vm.prot (y / PAGE) = .rw := by rw [f.σ]; exact hy
  rcases c49_accounted hg hi htl r hf (show s.reserved y by unfold Sys.reserved; rw [hy]; simp) with k | ⟨p, u, gd, k1, k2, k3, k4, k5, k6⟩ | k
  · exact Or.inl k
  · right
    rw [← f.σ] at k4
    have hok := f.linked.inv.reg _ k4
    have q1 := hok.pmod; have q2 := hok.gmod; have q3 := hok.lo
    simp only at q1 q2 q3
    refine ⟨p, u, k1, k2, k3, ?_, ?_⟩
    · by_contra hc
      have := f.linked.inv.regLo _ (y / PAGE) k4 (by unfold inPages; simp only; omega)
      rw [hrw] at this; cases this
    · by_contra hc
      have := f.linked.inv.regHi _ (y / PAGE) k4 (by rw [f.linked.effSize]; unfold inPages; simp only; unfold pageUp at *; omega)
      rw [hrw] at this; cases this
  · exfalso
    have hq := f.linked.inv.qprot f.calm (y / PAGE)
    rcases k with ⟨i, k1, k2, k3⟩ | ⟨i, k1, k2, k3⟩
    · refine hq i (Or.inl ((f.linked.inv.qrOwn _ i).mpr ?_)) hrw
      rw [hcfg, f.σ]; exact ⟨k1, k2, k3⟩
    · refine hq i (Or.inr ((f.linked.inv.qqOwn _ i).mpr ?_)) hrw
      rw [hcfg, f.σ]; exact ⟨k1, k2, k3⟩

/-- C49. Without a quarantine for large blocks, once no block outside of the slab region is live, nothing is mapped that was
not mapped by the initialisation or by others. -/
theorem c49_all_returned (hg : Good g ar) (hi : Initialised g ro σ0) (htl : ∀ t, (tl t).unsealed = false)
    (r : Steps ro ar true D [] ⟨σ0, tl⟩ h s) (h1 : g.regionQRandom = 0) (h2 : g.regionQQueue = 0)
    (hl : ∀ p, (live h p).isSome → ro.slabStart ≤ p ∧ p < ro.slabEnd) {y : Nat} (hf : foreign h (y / 4096) = false) (hy : s.reserved y) : (⟨σ0, tl⟩ : Sys).reserved y := by
  rcases c49_accounted hg hi htl r hf hy with k | ⟨p, u, gd, k1, k2, -⟩ | ⟨i, k, -⟩ | ⟨i, k, -⟩
  · exact k
  · exact absurd (hl p k1) k2
  · omega
  · omega

/-! ### Examples -/

theorem runActs_steps {ro : Ro} {ar : Nat → Nat} {calm : Bool} {as : List ExAct} {h h' : List Ev} {s0 s s' : Sys}
    (r : Steps ro ar calm anyClient [] s0 h s) (e : runActs ro ar calm (fun _ _ _ => true) as h s = some (h', s')) : Steps ro ar calm anyClient [] s0 h' s' := by
  induction as generalizing h s with
  | nil => cases e; exact r
  | cons a as ih =>
    unfold runActs at e
    by_cases k : (a.okB calm && true) = true
    · rw [if_pos k] at e
      rw [Bool.and_eq_true] at k
      revert e
      cases hs : s.step ro ar a.act with
      | ok x =>
        obtain ⟨s1, e1⟩ := x
        exact fun e => ih (.step r (ExAct.okB_ok k.1) trivial hs) e
      | fatal m => intro e; cases e
      | segv => intro e; cases e
      | ub m => intro e; cases e
      | hang => intro e; cases e
    · rw [if_neg k] at e; cases e

/-- A configuration with or without a quarantine for large blocks. -/
def leakCfg (q : Bool) : Cfg := { exCfg false false with regionQRandom := if q then 256 else 0, regionQQueue := if q then 1024 else 0 }
def leakRo (q : Bool) : Ro := ⟨leakCfg q, 0x10000000000, fun _ _ => PAGE⟩
def leakSys : Sys := ⟨exSt, fun _ => ⟨0, false⟩⟩

theorem leakGood (q : Bool) : Good (leakCfg q) (fun t => t % 4) := by
  refine ⟨by cases q <;> constructor <;> decide, by cases q <;> decide, fun t => ?_⟩
  have : (leakCfg q).nArena = 4 := by cases q <;> rfl
  rw [this]; exact Nat.mod_lt _ (by decide)

theorem leakInit (q : Bool) : Initialised (leakCfg q) (leakRo q) exSt :=
  exInitOf (by cases q <;> decide) (by cases q <;> decide) (by decide) (by decide)

theorem leak_any (q : Bool) (as : List ExAct) (P : List Ev → Sys → Bool)
    (e : ((runActs (leakRo q) (fun t => t % 4) true (fun _ _ _ => true) as [] leakSys).any fun x => P x.1 x.2) = true) :
    ∃ h s, Steps (leakRo q) (fun t => t % 4) true anyClient [] leakSys h s ∧ P h s = true := by
  rw [Option.any_eq_true] at e
  obtain ⟨⟨h, s⟩, h1, h2⟩ := e
  exact ⟨h, s, runActs_steps .refl h1, h2⟩

/-- A large block that is live: it was not mapped by the initialisation and can be accessed. -/
example : ∃ h s, Steps (leakRo true) (fun t => t % 4) true anyClient [] leakSys h s ∧ s.reserved exBig ∧ s.access exBig ∧ ¬ leakSys.reserved exBig := by
  obtain ⟨h, s, h1, h2⟩ := leak_any true [.call 0 (.malloc 200000) exMapAt]
    (fun _ s => decide (s.σ.vm.prot (exBig / 4096) = .rw) && decide (leakSys.σ.vm.prot (exBig / 4096) = .unmapped)) (by decide +kernel)
  simp only [Bool.and_eq_true, decide_eq_true_eq] at h2
  exact ⟨h, s, h1, by unfold Sys.reserved; rw [h2.1]; simp, h2.1, fun k => k h2.2⟩

/-- A large block that is freed and in quarantine. -/
example : ∃ h s, Steps (leakRo true) (fun t => t % 4) true anyClient [] leakSys h s ∧ s.reserved exBig ∧ ¬ s.access exBig ∧ ¬ leakSys.reserved exBig := by
  obtain ⟨h, s, h1, h2⟩ := leak_any true [.call 0 (.malloc 200000) exMapAt, .call 0 (.free exBig) 0]
    (fun _ s => decide (s.σ.vm.prot (exBig / 4096) = .none) && decide (leakSys.σ.vm.prot (exBig / 4096) = .unmapped)) (by decide +kernel)
  simp only [Bool.and_eq_true, decide_eq_true_eq] at h2
  exact ⟨h, s, h1, by unfold Sys.reserved; rw [h2.1]; simp, by unfold Sys.access; rw [h2.1]; simp, fun k => k h2.2⟩

/-- Without quarantine, a large block that was live has been returned. -/
example : ∃ e h s s', Steps (leakRo false) (fun t => t % 4) true anyClient [] leakSys h s ∧ s.reserved exBig ∧
    Steps (leakRo false) (fun t => t % 4) true anyClient [] leakSys (e :: h) s' ∧
    (∀ p, (live (e :: h) p).isSome → (leakRo false).slabStart ≤ p ∧ p < (leakRo false).slabEnd) ∧ ¬ s'.reserved exBig := by
  obtain ⟨h, s, h1, h2⟩ := leak_any false [.call 0 (.malloc 200000) exMapAt]
    (fun h s => (match h with | [.call _ (.malloc _) (.ptr q)] => decide (q = exBig) | _ => false) && decide (s.σ.vm.prot (exBig / 4096) = .rw) &&
      match s.call (leakRo false) (fun t => t % 4) 0 (.free exBig) (fun _ => exAt 0) with
      | .ok (s1, .unit) => decide (s1.σ.vm.prot (exBig / 4096) = .unmapped)
      | _ => false)
    (by decide +kernel)
  simp only [Bool.and_eq_true, decide_eq_true_eq] at h2
  obtain ⟨⟨q1, q2⟩, q3⟩ := h2
  split at q3
  · rename_i s1 e1
    rw [decide_eq_true_eq] at q3
    refine ⟨.call 0 (.free exBig) .unit, h, s, s1, h1, by unfold Sys.reserved; rw [q2]; simp, ?_, ?_, fun k => k q3⟩
    · refine .step (a := .call 0 (.free exBig) (fun _ => exAt 0)) h1 ⟨by unfold Call.Ok; decide, fun _ => exAt_env true _⟩ trivial ?_
      simp only [Sys.step, e1]
    · intro x hx
      exfalso
      split at q1
      · rw [decide_eq_true_eq] at q1
        subst q1
        simp only [live, liveStep, Call.request, Ret.block] at hx
        by_cases k : x = exBig
        · rw [if_pos k] at hx; cases hx
        · rw [if_neg k, if_neg (by decide)] at hx
          change (if x = exBig then _ else none).isSome = true at hx
          rw [if_neg k] at hx; cases hx
      · cases q1
  · cases q3

end HM
