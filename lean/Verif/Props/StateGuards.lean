import Verif.InitSpec
import Verif.ConcInv
import Verif.Props.Foreign
import Verif.Props.ThreadsQuarantine
/-
C75: the guards around the allocator's own state.

`init_slow_path` maps the state of the allocator with a random number of inaccessible pages before and behind it
(h_malloc.c:1220-1233). Afterwards only the allocator itself could make these pages accessible or release them: every range
it passes to the system lies in a block, in the guards of a block, or in memory that it has just mapped. Proof: the page of
the guard is treated as a page of someone else (`claimed`), which no action of a call changes (C50).

`c75_guards` is about calls that are made one after the other. The theorem on interleaved calls is partial, as for C50: `CEnv` excludes that, during a call that asks for an alignment above the page size,
the kernel refuses to release the end of the mapping (`c50_foreign_unmapped`). Not modelled: the changes of protection inside
of the state, when the table of large blocks and the descriptions of slabs grow (C74: these stay inside of their arrays).
-/
namespace HM

/-! ### Initialisation -/

/-- Pages in `M` are mapped, pages in `S` are inaccessible, pages in `R` are accessible. -/
structure Shield (M S R : Nat → Prop) (σ : St) : Prop where
  mapped : ∀ pg, M pg → σ.vm.prot pg ≠ .unmapped
  none : ∀ pg, S pg → σ.vm.prot pg = .none
  rw : ∀ pg, R pg → σ.vm.prot pg = .rw

variable {M S R : Nat → Prop}

theorem shield_sysMap {size : Nat} {tl : Tl} {σ : St} (h : Shield M S R σ) :
    (sysMap size).ens (fun r σ' => match r with
      | none => Shield M S R σ'
      | some a => a % PAGE = 0 ∧ PAGE ≤ a ∧ (∀ pg, inPages a size pg → ¬ M pg ∧ ¬ S pg ∧ ¬ R pg) ∧
          Shield (fun pg => M pg ∨ inPages a size pg) (fun pg => S pg ∨ inPages a size pg) R σ') tl σ := by
  intro ch
  dsimp only
  cases e : memoryMap σ.vm (ch.sys 0) ch.addr size with
  | fatal _ => trivial
  | segv => trivial
  | ub _ => trivial
  | hang => trivial
  | ok r =>
    obtain ⟨vm, r⟩ := r
    unfold memoryMap at e
    revert e
    cases ch.sys 0 with
    | other => exact fun e => absurd e (by simp)
    | enomem => intro e; simp only [Res.ok.injEq, Prod.mk.injEq] at e; obtain ⟨rfl, rfl⟩ := e; exact ⟨h.mapped, h.none, h.rw⟩
    | ok =>
      simp only
      by_cases h0 : size = 0
      · rw [if_pos h0]; exact fun e => absurd e (by simp)
      rw [if_neg h0]
      by_cases hc : ch.addr % PAGE = 0 ∧ PAGE ≤ ch.addr ∧ ch.addr + size ≤ ADDR_END ∧
          Vm.allPages ch.addr size (fun pg => σ.vm.prot pg == .unmapped) = true
      · rw [if_pos hc]
        intro e
        simp only [Res.ok.injEq, Prod.mk.injEq] at e; obtain ⟨rfl, rfl⟩ := e
        obtain ⟨c1, c2, _, c4⟩ := hc
        have c4 : ∀ pg, inPages ch.addr size pg → σ.vm.prot pg = .unmapped := fun pg hp => by
          simpa using Vm.allPages_iff.mp c4 pg hp
        refine ⟨c1, c2, fun pg hp => ⟨fun hM => h.mapped pg hM (c4 pg hp), fun hS => ?_, fun hR => ?_⟩, ⟨fun pg hp => ?_, fun pg hp => ?_, fun pg hp => ?_⟩⟩
        · have := h.none pg hS; rw [c4 pg hp] at this; cases this
        · have := h.rw pg hR; rw [c4 pg hp] at this; cases this
        · show (if inPages _ _ pg then Prot.none else _) ≠ _
          by_cases hh : inPages ch.addr size pg
          · rw [if_pos hh]; simp
          · rw [if_neg hh]; exact h.mapped pg (hp.resolve_right hh)
        · show (if inPages _ _ pg then Prot.none else _) = _
          by_cases hh : inPages ch.addr size pg
          · rw [if_pos hh]
          · rw [if_neg hh]; exact h.none pg (hp.resolve_right hh)
        · show (if inPages _ _ pg then Prot.none else _) = _
          rw [if_neg fun hh => by have := h.rw pg hp; rw [c4 pg hh] at this; cases this]
          exact h.rw pg hp
      · rw [if_neg hc]
        intro e
        simp only [Res.ok.injEq, Prod.mk.injEq] at e; obtain ⟨rfl, rfl⟩ := e
        exact ⟨h.mapped, h.none, h.rw⟩

theorem shield_sysProtect {a n : Nat} {tl : Tl} {σ : St} (h : Shield M S R σ) (hd : ∀ pg, inPages a n pg → ¬ S pg) :
    (sysProtect a n).ens (fun b σ' => Shield M S R σ' ∧ (b = false → a % PAGE = 0 ∧ Shield M S (fun pg => R pg ∨ inPages a n pg) σ')) tl σ := by
  refine ens_sysCall fun ch vm b e => ?_
  unfold memoryProtectRw at e
  by_cases hp : a % PAGE ≠ 0
  · rw [if_pos hp] at e; exact absurd e (by simp)
  rw [if_neg hp] at e
  revert e
  cases ch.sys 0 with
  | other => exact fun e => absurd e (by simp)
  | enomem => intro e; simp only [Res.ok.injEq, Prod.mk.injEq] at e; obtain ⟨rfl, rfl⟩ := e; exact ⟨⟨h.mapped, h.none, h.rw⟩, fun e => by cases e⟩
  | ok =>
    simp only
    by_cases hc : Vm.allPages a n (fun pg => σ.vm.prot pg != .unmapped) = true
    · rw [if_pos hc]
      intro e; simp only [Res.ok.injEq, Prod.mk.injEq] at e; obtain ⟨rfl, rfl⟩ := e
      have key : Shield M S (fun pg => R pg ∨ inPages a n pg) { σ with vm := σ.vm.setProt a n .rw } := by
        refine ⟨fun pg hp => ?_, fun pg hp => ?_, fun pg hp => ?_⟩
        · show (if inPages _ _ pg then Prot.rw else _) ≠ _
          by_cases hh : inPages a n pg
          · rw [if_pos hh]; simp
          · rw [if_neg hh]; exact h.mapped pg hp
        · show (if inPages _ _ pg then Prot.rw else _) = _
          rw [if_neg fun hh => hd pg hh hp]; exact h.none pg hp
        · show (if inPages _ _ pg then Prot.rw else _) = _
          by_cases hh : inPages a n pg
          · rw [if_pos hh]
          · rw [if_neg hh]; exact h.rw pg (hp.resolve_right hh)
      exact ⟨⟨key.mapped, key.none, fun pg hp => key.rw pg (Or.inl hp)⟩, fun _ => ⟨by omega, key⟩⟩
    · rw [if_neg hc]
      intro e; simp only [Res.ok.injEq, Prod.mk.injEq] at e; obtain ⟨rfl, rfl⟩ := e; exact ⟨⟨h.mapped, h.none, h.rw⟩, fun e => by cases e⟩

theorem shield_sysUnmap {a n : Nat} {tl : Tl} {σ : St} (h : Shield M S R σ) (hd : ∀ pg, inPages a n pg → ¬ M pg ∧ ¬ S pg ∧ ¬ R pg) :
    (sysUnmap a n).ens (fun _ σ' => Shield M S R σ') tl σ := by
  refine ens_sysCall fun ch vm b e => ?_
  unfold memoryUnmap at e
  by_cases hp : a % PAGE ≠ 0 ∨ n = 0
  · rw [if_pos hp] at e; exact absurd e (by simp)
  rw [if_neg hp] at e
  revert e
  cases ch.sys 0 with
  | other => exact fun e => absurd e (by simp)
  | enomem => intro e; simp only [Res.ok.injEq, Prod.mk.injEq] at e; obtain ⟨rfl, rfl⟩ := e; exact ⟨h.mapped, h.none, h.rw⟩
  | ok =>
    intro e; simp only [Res.ok.injEq, Prod.mk.injEq] at e; obtain ⟨rfl, rfl⟩ := e
    refine ⟨fun pg hp => ?_, fun pg hp => ?_, fun pg hp => ?_⟩
    · show (if inPages _ _ pg then Prot.unmapped else _) ≠ _
      rw [if_neg fun hh => (hd pg hh).1 hp]; exact h.mapped pg hp
    · show (if inPages _ _ pg then Prot.unmapped else _) = _
      rw [if_neg fun hh => (hd pg hh).2.1 hp]; exact h.none pg hp
    · show (if inPages _ _ pg then Prot.unmapped else _) = _
      rw [if_neg fun hh => (hd pg hh).2.2 hp]; exact h.rw pg hp

theorem shield_sysPurge {a n : Nat} {tl : Tl} {σ : St} (h : Shield M S R σ) :
    (sysPurge a n).ens (fun _ σ' => Shield M S R σ') tl σ := by
  refine ens_sysCall fun ch vm b e => ?_
  unfold memoryPurge at e
  by_cases hp : a % PAGE ≠ 0
  · rw [if_pos hp] at e; exact absurd e (by simp)
  rw [if_neg hp] at e
  revert e
  cases ch.sys 0 with
  | other => exact fun e => absurd e (by simp)
  | enomem => intro e; simp only [Res.ok.injEq, Prod.mk.injEq] at e; obtain ⟨rfl, rfl⟩ := e; exact ⟨h.mapped, h.none, h.rw⟩
  | ok => intro e; simp only [Res.ok.injEq, Prod.mk.injEq] at e; obtain ⟨rfl, rfl⟩ := e; exact ⟨h.mapped, h.none, h.rw⟩

theorem shield_allocatePages {n guard : Nat} {tl : Tl} {σ : St} :
    (allocatePages n guard).ens (fun r σ => match r with
      | none => True
      | some p => Shield (inPages (p - guard) (n + guard * 2)) (fun _ => False) (fun _ => False) σ) tl σ := by
  have h0 : Shield (fun _ => False) (fun _ => False) (fun _ => False) σ := ⟨fun _ => False.elim, fun _ => False.elim, fun _ => False.elim⟩
  unfold allocatePages
  cases hg : addGuards n guard with
  | none => exact Prog.ens_bind fun ch => fun _ => trivial
  | some real =>
    have := initAddGuards_some hg
    refine Prog.ens_bind (Prog.ens_mono (shield_sysMap h0) fun r σ h tl => ?_)
    cases r with
    | none => trivial
    | some a =>
      obtain ⟨h1, h2, h3, h4⟩ := h
      have h5 : Shield (inPages (a + guard - guard) (n + guard * 2)) (fun _ => False) (fun _ => False) σ :=
        ⟨fun pg hp => h4.mapped pg (Or.inr (by
          rw [this]; rw [Nat.add_sub_cancel] at hp; rwa [show n + guard + guard = n + guard * 2 by omega])),
          fun _ => False.elim, fun _ => False.elim⟩
      refine Prog.ens_bind (Prog.ens_mono (shield_sysProtect h5 fun _ _ => id) fun b σ h tl => ?_)
      cases b with
      | true => exact Prog.ens_bind (Prog.ens_mono (shield_sysUnmap (M := fun _ => False) ⟨fun _ => False.elim, h.1.none, h.1.rw⟩ fun _ _ => ⟨id, id, id⟩) fun _ _ _ _ => trivial)
      | false => exact h.1

theorem shield_deallocatePages {p n guard : Nat} {tl : Tl} {σ : St} (h : Shield M S R σ)
    (hd : ∀ pg, inPages (p - guard) (n + guard * 2) pg → ¬ M pg ∧ ¬ S pg ∧ ¬ R pg) :
    (deallocatePages p n guard).ens (fun _ σ => Shield M S R σ) tl σ := by
  refine Prog.ens_bind (Prog.ens_mono (shield_sysUnmap h hd) fun b σ h tl => ?_)
  cases b with
  | true => exact Prog.ens_bind (Prog.ens_mono (shield_sysPurge h) fun _ σ' h' _ => h')
  | false => exact h

/-- What initialisation leaves: the state of the allocator (`n` bytes, of which the first `m` and the first 128 entries of the table can be accessed at once),
with `k` inaccessible pages before and behind it, apart from the memory for small blocks. -/
structure Guarded (g : Cfg) (n m : Nat) (ro : Ro) (σ : St) (p k : Nat) : Prop where
  pos : 1 ≤ k
  max : k ≤ 2 * g.classRegionSize / 4096
  aligned : p % 4096 = 0
  low : k * 4096 < p
  before : ∀ x, p - k * 4096 ≤ x → x < p → σ.vm.prot (x / 4096) = .none
  behind : ∀ x, (p + n + 4095) / 4096 * 4096 ≤ x → x < (p + n + 4095) / 4096 * 4096 + k * 4096 → σ.vm.prot (x / 4096) = .none
  state : ∀ x, p ≤ x → x < p + m → σ.vm.prot (x / 4096) = .rw
  table : ∀ x, p + m ≤ x → x < p + m + 128 * 24 → σ.vm.prot (x / 4096) = .rw
  mapped : ∀ x, p - k * 4096 ≤ x → x < (p + n + 4095) / 4096 * 4096 + k * 4096 → σ.vm.prot (x / 4096) ≠ .unmapped
  apart : ∀ x, p - k * 4096 ≤ x → x < (p + n + 4095) / 4096 * 4096 + k * 4096 → ¬ inPages ro.slabStart (ro.arenaSize * ro.g.nArena) (x / 4096)

theorem shield_reservePages {n guard : Nat} {tl : Tl} {σ : St} (h : Shield M (fun _ => False) (fun _ => False) σ) :
    (reservePages n guard).ens (fun r σ => match r with
      | none => True
      | some p => ∃ a, p = a + guard ∧ a % PAGE = 0 ∧ PAGE ≤ a ∧ (∀ pg, inPages a (n + guard + guard) pg → ¬ M pg) ∧
          Shield (fun pg => M pg ∨ inPages a (n + guard + guard) pg) (inPages a (n + guard + guard)) (fun _ => False) σ) tl σ := by
  unfold reservePages
  cases hg : addGuards n guard with
  | none => exact Prog.ens_bind fun ch => fun _ => trivial
  | some real =>
    have := initAddGuards_some hg
    subst this
    refine Prog.ens_bind (Prog.ens_mono (shield_sysMap h) fun r σ h tl => ?_)
    cases r with
    | none => trivial
    | some a =>
      obtain ⟨h1, h2, h3, h4⟩ := h
      exact ⟨a, rfl, h1, h2, fun pg hp => (h3 pg hp).1, ⟨h4.mapped, fun pg hp => h4.none pg (Or.inr hp), fun _ => False.elim⟩⟩

theorem guarded_init {g : Cfg} {l : Layout} {ro : Ro} {σ : St} {chs : Nat → Choice} {tl tl' : Tl} (hv : 4096 ≤ g.classRegionSize)
    (h : (initSlowPath g l).run chs St.zero tl = .ok (σ, tl', ro)) : ∃ p k, Guarded g l.state l.tabOff ro σ p k := by
  refine Prog.ens_run (Q := fun ro σ => ∃ p k, Guarded g l.state l.tabOff ro σ p k) ?_ h
  clear h
  unfold initSlowPath
  generalize PAGE = G
  refine Prog.ens_bind (Prog.ens_mono shield_allocatePages fun r σ h => ?_)
  cases r with
  | none => exact fun _ => ens_die
  | some rng =>
    intro tl
    refine Prog.ens_bind fun ch => ?_
    show ∀ tl, _
    intro tl
    have hk : 1 ≤ ch.guard % (g.realClassRegionSize / PAGE) + 1 ∧
        ch.guard % (g.realClassRegionSize / PAGE) + 1 ≤ 2 * g.classRegionSize / 4096 := by
      have e : g.realClassRegionSize / PAGE = 2 * g.classRegionSize / 4096 := by
        unfold Cfg.realClassRegionSize; rw [Nat.mul_comm]
      have : 0 < 2 * g.classRegionSize / 4096 := by omega
      have := Nat.mod_lt ch.guard this
      rw [e]; omega
    generalize ch.guard % (g.realClassRegionSize / PAGE) + 1 = k at hk ⊢
    refine Prog.ens_bind (Prog.ens_mono (shield_reservePages h) fun r σ h => ?_)
    cases r with
    | none => exact fun _ => ens_die
    | some p =>
      intro tl
      obtain ⟨a, rfl, ha, ha1, hd, h⟩ := h
      have fits := l.fits
      generalize hn : l.state = n at *
      generalize hm : l.tabOff = m at *
      -- the guards
      let S : Nat → Prop := fun pg => inPages a (k * PAGE) pg ∨
        ((a + k * PAGE + n + 4095) / PAGE ≤ pg ∧ pg < (a + k * PAGE + n + 4095) / PAGE + k)
      have hS : ∀ pg, S pg → inPages a (n + k * PAGE + k * PAGE) pg := by
        intro pg hp
        simp only [S, inPages] at hp ⊢
        omega
      have h : Shield (fun pg => inPages (rng - G) (l.rng + G * 2) pg ∨ inPages a (n + k * PAGE + k * PAGE) pg) S (fun _ => False) σ :=
        ⟨h.mapped, fun pg hp => h.none pg (hS pg hp), fun _ => False.elim⟩
      have d1 : ∀ m', m' % 4096 = 0 → m' + 128 * 24 ≤ n → ∀ pg, (inPages (a + k * PAGE) m' pg ∨ inPages (a + k * PAGE + m') (128 * 24) pg) →
          ¬ S pg ∧ inPages a (n + k * PAGE + k * PAGE) pg := by
        intro m' hm' hf pg hp
        simp only [S, inPages] at hp ⊢
        omega
      have d0 : ∀ pg, inPages (a + k * PAGE) m pg → ¬ S pg := by
        intro pg hp
        simp only [S, inPages] at hp ⊢
        omega
      refine Prog.ens_bind (Prog.ens_mono (shield_sysProtect h d0) fun b σ h tl => ?_)
      cases b with
      | true => exact ens_die
      | false =>
        obtain ⟨_, h⟩ := h.2 rfl
        refine Prog.ens_bind (Prog.ens_mono (shield_sysProtect h fun pg hp => ?_) fun b σ h tl => ?_)
        · simp only [S, inPages] at hp ⊢
          omega
        cases b with
        | true => exact ens_die
        | false =>
          obtain ⟨hm0, h⟩ := h.2 rfl
          have hm0 : m % 4096 = 0 := by omega
          refine Prog.ens_bind (Prog.ens_mono (shield_sysMap h) fun r σ h tl => ?_)
          cases r with
          | none => exact ens_die
          | some slab =>
            obtain ⟨h1, h2, h3, h4⟩ := h
            refine Prog.ens_bind fun ch tl => ?_
            have h6 := Shield.mk (M := inPages a (n + k * PAGE + k * PAGE)) (S := S) (R := fun pg => (False ∨ inPages (a + k * PAGE) m pg) ∨ inPages (a + k * PAGE + m) (128 * 24) pg)
              (fun pg hp => h4.mapped pg (Or.inl (Or.inr hp))) (fun pg hp => h4.none pg (Or.inl hp)) h4.rw
            refine Prog.ens_bind (Prog.ens_mono (shield_deallocatePages h6 fun pg hp => ⟨fun hs => hd pg hs hp, fun hs => hd pg (hS pg hs) hp, fun hr => ?_⟩) fun _ σ h tl => ?_)
            · exact hd pg (d1 m hm0 fits pg (by simpa using hr)).2 hp
            refine ⟨a + k * PAGE, k, ?_⟩
            have key : ∀ x, a ≤ x → x < (a + k * PAGE + n + 4095) / 4096 * 4096 + k * 4096 → inPages a (n + k * PAGE + k * PAGE) (x / 4096) := by
              intro x h1 h2
              simp only [inPages] at h2 ha ⊢
              omega
            refine ⟨hk.1, hk.2, ?_, ?_, fun x h1 h2 => h.none _ ?_, fun x h1 h2 => h.none _ ?_, fun x h1 h2 => h.rw _ (Or.inl (Or.inr ?_)), fun x h1 h2 => h.rw _ (Or.inr ?_), fun x hx1 hx2 => h.mapped _ (key x (by omega) hx2), fun x hx1 hx2 => ?_⟩
            · omega
            · omega
            · simp only [S, inPages] at h1 h2 ha ⊢; omega
            · simp only [S, inPages] at h1 h2 ha ⊢; omega
            · simp only [inPages] at h1 h2 ha ⊢; omega
            · simp only [inPages] at h1 h2 ha ⊢; omega
            · exact fun hc => (h3 (x / 4096) hc).1 (Or.inr (key x (by omega) hx2))

/-! ### Afterwards -/

/-- The history `h`, begun by someone else mapping page `pg`. -/
def claimed (pg : Nat) (h : List CEv) : List CEv := h ++ [.foreign pg true]

theorem claimed_hold (pg : Nat) (h : List CEv) : hold (claimed pg h) = hold h := by
  induction h with
  | nil => rfl
  | cons e h ih => show (hold (claimed pg h)).step e = (hold h).step e; rw [ih]

theorem claimed_foreign {pg : Nat} {h : List CEv} {q : Nat} (e : cforeign h q = true) : cforeign (claimed pg h) q = true := by
  induction h with
  | nil => cases e
  | cons v h ih =>
    cases v with
    | foreign a m =>
      replace e : (if q = a then m else cforeign h q) = true := e
      show (if q = a then m else cforeign (claimed pg h) q) = true
      by_cases hq : q = a
      · rw [if_pos hq] at e ⊢; exact e
      · rw [if_neg hq] at e ⊢; exact ih e
    | _ => exact ih e

theorem claimed_step {ro : Ro} {ar : Nat → Nat} {calm : Bool} {h h' : List CEv} {s s' : CSys} (pg : Nat) (st : CStep ro ar calm h s h' s') :
    CStep ro ar calm (claimed pg h) s (claimed pg h') s' := by
  cases st with
  | invoke t c b hi hok hl => exact .invoke t c b hi hok (by rw [claimed_hold]; exact hl)
  | step t hc he hf => exact .step t hc he hf
  | ret t hc => exact .ret t hc
  | store x v hp hu h1 h2 => exact .store x v (by rw [claimed_hold]; exact hp) hu h1 h2
  | errno t e hi => exact .errno t e hi
  | fork t hi => exact .fork t hi
  | other q pr data hp => exact .other q pr data (hp.imp claimed_foreign id)

section
variable {g : Cfg} {ro : Ro} {ar : Nat → Nat} {calm : Bool}

/-- A page that is mapped after initialisation and is not in the memory for small blocks may be taken to be someone else's. -/
theorem claimed_init (hg : Good g ar) {σ : St} {tl : Nat → Tl} (hi : Initialised g ro σ) (htl : ∀ t, (tl t).unsealed = false) {pg : Nat}
    (hm : σ.vm.prot pg ≠ .unmapped) (hs : ¬ inPages ro.slabStart (ro.arenaSize * ro.g.nArena) pg) :
    ∃ w, CInv ro calm (fun _ => 0) (claimed pg []) ⟨σ, tl, fun _ => none, fun _ => σ⟩ w := by
  have hro := hi.roOk hg.valid hg.freeQ
  obtain ⟨h1, h2, h3⟩ := hi.inv hg.valid hg.freeQ calm
  let w : World := ⟨σ, Gh.init ro calm⟩
  have hown : w.G.own pg = .none := if_neg hs
  have hne : ∀ q, Ours (w.G.own q) → q ≠ pg := fun q ho e => by rw [e, hown] at ho; exact ho.1 rfl
  have o : Outside w (fun q => if q = pg then .held 0 else w.G.own q) w.σ.vm := by
    refine ⟨fun q ho => if_neg (hne q ho), fun q ho => rfl, fun x ho => rfl, fun q ho => ?_, fun q ho h0 => ?_⟩
    · split
      · exact fun hc => hc.2 0 rfl
      · exact ho
    · by_cases e : q = pg
      · rw [e]; exact hm
      · simp only [if_neg e] at h0
        exact h1.mapped q h0
  have tr := o.trans (f := 0) hro h1 fun t ht q => by
    refine ⟨?_, fun hq => ⟨rfl, fun x hx => rfl⟩⟩
    by_cases e : q = pg
    · rw [if_pos e, e]
      refine iff_of_false (by simp [Ne.symm ht]) ?_
      rw [hown]; simp
    · rw [if_neg e]
  refine ⟨_, rfl, tr.inv, tr.stat h2, tr.content h3, rfl, fun p => iff_of_false (by simp [Gh.init, World.outside, w]) (by simp [claimed, hold, Hold.step]), fun _ _ e => (by cases e), fun t _ => htl t, fun q hq => ?_, fun _ _ _ e => (by cases e)⟩
  have hq : (if q = pg then true else false) = true := hq
  show (if q = pg then _ else _) = _
  by_cases e : q = pg
  · rw [if_pos e]
  · rw [if_neg e] at hq; cases hq

/-- It keeps its protection. -/
theorem claimed_steps (hg : Good g ar) {σ : St} {tl : Nat → Tl} (hi : Initialised g ro σ) (htl : ∀ t, (tl t).unsealed = false) {pg : Nat}
    (hm : σ.vm.prot pg ≠ .unmapped) (hs : ¬ inPages ro.slabStart (ro.arenaSize * ro.g.nArena) pg) {h : List CEv} {s : CSys}
    (st : CSteps ro ar calm [] ⟨σ, tl, fun _ => none, fun _ => σ⟩ h s) :
    (∃ w n0, CInv ro calm n0 (claimed pg h) s w) ∧ cforeign h pg = false ∧ cforeign (claimed pg h) pg = true ∧ s.σ.vm.prot pg = σ.vm.prot pg := by
  have hro := hi.roOk hg.valid hg.freeQ
  have eg : ro.g = g := hi.post.cfg
  induction st with
  | refl =>
    obtain ⟨w, i⟩ := claimed_init (calm := calm) hg hi htl hm hs
    exact ⟨⟨w, _, i⟩, rfl, by simp [claimed, cforeign], rfl⟩
  | @tail h h' s s' _ st ih =>
    obtain ⟨⟨w, n0, I⟩, hf, hc, hp⟩ := ih
    obtain ⟨n0', w', i', _⟩ := I.step hg hro eg (claimed_step pg st)
    refine ⟨⟨w', n0', i'⟩, ?_⟩
    clear i'
    cases st with
    | step t hc' he hf' =>
      refine ⟨hf, hc, Eq.trans ?_ hp⟩
      obtain ⟨ch', hs, hch, _⟩ := I.settle hc' he
      have h1 := (I.wp hc').2 ch' (I.env ▸ hs.fair)
      rw [hch, I.σ, hf'] at h1
      obtain ⟨G', h2, _⟩ := h1
      have h3 := h2.same (.thr 0) (by simp) (by simp)
      rw [← I.σ]
      exact h3.prot 0 rfl _ (I.others _ hc)
    | store x v _ _ _ _ => 
      refine ⟨hf, hc, ?_⟩
      show (s.σ.vm.appStore x v).prot _ = _
      rw [appStore_prot]; exact hp
    | other q pr data hq =>
      have hne : pg ≠ q := by
        rintro rfl
        rcases hq with e | e
        · rw [hf] at e; cases e
        · exact hm (hp ▸ e)
      refine ⟨?_, ?_, ?_⟩
      · show (if pg = q then _ else cforeign h pg) = false
        rw [if_neg hne]; exact hf
      · show (if pg = q then _ else cforeign (claimed pg h) pg) = true
        rw [if_neg hne]; exact hc
      · show (if pg = q then _ else s.σ.vm.prot pg) = _
        rw [if_neg hne]; exact hp
    | _ => exact ⟨hf, hc, hp⟩

/-- C75. Initialisation puts the state of the allocator (`l.state` bytes, at `p`) between two guards of `k` inaccessible pages each, `k` between one page and
the size of the memory of a size class with its gaps; the first 128 entries of the table of large blocks (at `l.tabOff`) and all before them are accessible. From then on, whatever the threads and others do: the guards are inaccessible, and neither the guards nor the state
overlap with a block of the application. -/
theorem c75_guards_partial (hg : Good g ar) {l : Layout} {σ : St} {chs : Nat → Choice} {tl0 tl1 : Tl} {tl : Nat → Tl}
    (hi : (initSlowPath g l).run chs St.zero tl0 = .ok (σ, tl1, ro)) (htl : ∀ t, (tl t).unsealed = false) :
    ∃ p k, 1 ≤ k ∧ k ≤ 2 * g.classRegionSize / 4096 ∧ p % 4096 = 0 ∧ k * 4096 < p ∧
      (∀ x, p + l.tabOff ≤ x → x < p + l.tabOff + 128 * 24 → σ.vm.prot (x / 4096) = .rw) ∧
      ∀ h s, CSteps ro ar calm [] ⟨σ, tl, fun _ => none, fun _ => σ⟩ h s →
        (∀ x, p - k * 4096 ≤ x → x < p → s.σ.vm.prot (x / 4096) = .none) ∧
        (∀ x, p ≤ x → x < p + l.tabOff → s.σ.vm.prot (x / 4096) = .rw) ∧
        (∀ x, (p + l.state + 4095) / 4096 * 4096 ≤ x → x < (p + l.state + 4095) / 4096 * 4096 + k * 4096 → s.σ.vm.prot (x / 4096) = .none) ∧
        ∀ x, p - k * 4096 ≤ x → x < (p + l.state + 4095) / 4096 * 4096 + k * 4096 →
          ∀ q u, ((hold h).live q).isSome → Usable ro s.σ q u → x < q ∨ q + u ≤ x := by
  have hI : Initialised g ro σ := ⟨l, chs, tl0, tl1, hi⟩
  have hro := hI.roOk hg.valid hg.freeQ
  obtain ⟨p, k, G⟩ := guarded_init (le_trans (by decide) hg.valid.classRegionMin) hi
  have fits := l.fits
  refine ⟨p, k, G.pos, G.max, G.aligned, G.low, G.table, fun h s st => ?_⟩
  have all : ∀ x, p - k * 4096 ≤ x → x < (p + l.state + 4095) / 4096 * 4096 + k * 4096 →
      (∃ w n0, CInv ro calm n0 (claimed (x / 4096) h) s w) ∧ cforeign h (x / 4096) = false ∧ cforeign (claimed (x / 4096) h) (x / 4096) = true ∧
        s.σ.vm.prot (x / 4096) = σ.vm.prot (x / 4096) := fun x h1 h2 => by
    exact claimed_steps hg hI htl (G.mapped x h1 h2) (G.apart x h1 h2) st
  refine ⟨fun x h1 h2 => ?_, fun x h1 h2 => ?_, fun x h1 h2 => ?_, fun x h1 h2 q u hl hu => ?_⟩
  · rw [(all x h1 (by omega)).2.2.2]; exact G.before x h1 h2
  · rw [(all x (by omega) (by omega)).2.2.2]
    exact G.state x h1 h2
  · rw [(all x (by omega) h2).2.2.2]; exact G.behind x h1 h2
  · obtain ⟨⟨w, n0, I⟩, _, hf, _⟩ := all x h1 h2
    rw [← claimed_hold (x / 4096)] at hl
    have hs := (I.usable_iff hro hl).mp hu
    by_contra hc
    have := user_ours hro I.inv (UsableIs.user' (I.eff hl) hs (x := x) (by unfold inRange; omega))
    exact this.2 0 (I.others _ hf)

end

/-! ### Calls one after the other, any application -/

/-- The history `h`, begun by someone else mapping page `pg`. -/
def claimedS (pg : Nat) (h : List Ev) : List Ev := h ++ [.foreign pg true]

theorem claimedS_live (pg : Nat) (h : List Ev) : live (claimedS pg h) = live h := by
  induction h with
  | nil => rfl
  | cons e h ih => show liveStep (live (claimedS pg h)) e = liveStep (live h) e; rw [ih]

theorem claimedS_foreign {pg : Nat} {h : List Ev} {q : Nat} (e : foreign h q = true) : foreign (claimedS pg h) q = true := by
  induction h with
  | nil => cases e
  | cons v h ih =>
    cases v with
    | foreign a m =>
      replace e : (if q = a then m else foreign h q) = true := e
      show (if q = a then m else foreign (claimedS pg h) q) = true
      by_cases hq : q = a
      · rw [if_pos hq] at e ⊢; exact e
      · rw [if_neg hq] at e ⊢; exact ih e
    | _ => exact ih e

section
variable {g : Cfg} {ro : Ro} {ar : Nat → Nat} {calm : Bool} {D : Client}

/-- A page that is mapped after initialisation and is not in the memory for small blocks keeps its protection. -/
theorem claimedS_steps (hg : Good g ar) {σ : St} {tl : Nat → Tl} (hi : Initialised g ro σ) (htl : ∀ t, (tl t).unsealed = false) {pg : Nat}
    (hm : σ.vm.prot pg ≠ .unmapped) (hs : ¬ inPages ro.slabStart (ro.arenaSize * ro.g.nArena) pg) {h : List Ev} {s : Sys}
    (st : Steps ro ar calm D [] ⟨σ, tl⟩ h s) :
    (∃ w, Fits ro calm (claimedS pg h) s w) ∧ foreign h pg = false ∧ foreign (claimedS pg h) pg = true ∧ s.σ.vm.prot pg = σ.vm.prot pg := by
  have hro := hi.roOk hg.valid hg.freeQ
  have eg : ro.g = g := hi.post.cfg
  have har : ∀ t, ar t < ro.g.nArena := fun t => by rw [eg]; exact hg.arena t
  induction st with
  | refl =>
    obtain ⟨f, _⟩ := fits_init hg hi htl calm
    refine ⟨⟨⟨σ, Gh.init ro calm⟩, f.σ, f.linked, f.calm, f.tl, fun q hq => ?_⟩, rfl, by simp [claimedS, foreign], rfl⟩
    have hq : (if q = pg then true else false) = true := hq
    have hq : q = pg := by
      by_contra e
      rw [if_neg e] at hq; cases hq
    subst hq
    refine ⟨fun hc => hc.1 (if_neg hs), hm⟩
  | @step h s s' a e _ ha _ hst ih =>
    obtain ⟨⟨w, f⟩, hf, hc, hp⟩ := ih
    obtain ⟨w', f', _⟩ := Sys.step_linked hro har f ha hst
    refine ⟨⟨w', f'⟩, ?_⟩
    clear f'
    cases a with
    | store x v =>
      cases hst
      refine ⟨hf, hc, ?_⟩
      show (s.σ.vm.appStore x v).prot _ = _
      rw [appStore_prot]; exact hp
    | errno t e => cases hst; exact ⟨hf, hc, hp⟩
    | call t c chs =>
      have f := f.setTags none
      have f' := f.hold hro (t + 1)
      have k := Sys.call_spec (ar := ar) (s := s) (c := c) (chs := chs) hro f'.linked f'.σ (f.tl t) (har t) ha.1 (fun n => by
        rw [f'.calm]; exact ha.2 n) fun _ _ e => nomatch e
      unfold Sys.step at hst
      simp only at hst
      revert k hst
      cases s.call ro ar t c chs with
      | ok r =>
        obtain ⟨s1, r⟩ := r
        intro hst
        cases hst
        rintro ⟨w', h1, h2, _⟩
        exact ⟨hf, hc, (((f'.call_others h1 (fun pg hp => if_pos hp) h2).2 pg hc).1).trans hp⟩
      | fatal m => intro hst; cases hst
      | segv => intro hst; cases hst
      | ub m => intro hst; cases hst
      | hang => intro hst; cases hst
  | @other h s _ q pr data hq ih =>
    obtain ⟨⟨w, f⟩, hf, hc, hp⟩ := ih
    rw [List.append_nil] at hq
    obtain ⟨f', _⟩ := f.other hro (pg := q) (hq.imp claimedS_foreign id) pr data
    refine ⟨⟨_, f'⟩, ?_⟩
    have hne : pg ≠ q := by
      rintro rfl
      rcases hq with e | e
      · rw [hf] at e; cases e
      · exact hm (hp ▸ e)
    refine ⟨?_, ?_, ?_⟩
    · show (if pg = q then _ else foreign h pg) = false
      rw [if_neg hne]; exact hf
    · show (if pg = q then _ else foreign (claimedS pg h) pg) = true
      rw [if_neg hne]; exact hc
    · show (if pg = q then _ else s.σ.vm.prot pg) = _
      rw [if_neg hne]; exact hp

/-- C75, for calls one after the other: as `c75_guards_partial`, with every answer of the kernel and for any application `D`, which may make invalid
calls and store to whatever it can write to. -/
theorem c75_guards (hg : Good g ar) {l : Layout} {σ : St} {chs : Nat → Choice} {tl0 tl1 : Tl} {tl : Nat → Tl}
    (hi : (initSlowPath g l).run chs St.zero tl0 = .ok (σ, tl1, ro)) (htl : ∀ t, (tl t).unsealed = false) :
    ∃ p k, 1 ≤ k ∧ k ≤ 2 * g.classRegionSize / 4096 ∧ p % 4096 = 0 ∧ k * 4096 < p ∧
      (∀ x, p + l.tabOff ≤ x → x < p + l.tabOff + 128 * 24 → σ.vm.prot (x / 4096) = .rw) ∧
      ∀ h s, Steps ro ar calm D [] ⟨σ, tl⟩ h s →
        (∀ x, p - k * 4096 ≤ x → x < p → s.σ.vm.prot (x / 4096) = .none) ∧
        (∀ x, p ≤ x → x < p + l.tabOff → s.σ.vm.prot (x / 4096) = .rw) ∧
        (∀ x, (p + l.state + 4095) / 4096 * 4096 ≤ x → x < (p + l.state + 4095) / 4096 * 4096 + k * 4096 → s.σ.vm.prot (x / 4096) = .none) ∧
        ∀ x, p - k * 4096 ≤ x → x < (p + l.state + 4095) / 4096 * 4096 + k * 4096 →
          ∀ q u, (live h q).isSome → Usable ro s.σ q u → x < q ∨ q + u ≤ x := by
  have hI : Initialised g ro σ := ⟨l, chs, tl0, tl1, hi⟩
  have hro := hI.roOk hg.valid hg.freeQ
  obtain ⟨p, k, G⟩ := guarded_init (le_trans (by decide) hg.valid.classRegionMin) hi
  have fits := l.fits
  refine ⟨p, k, G.pos, G.max, G.aligned, G.low, G.table, fun h s st => ?_⟩
  have all : ∀ x, p - k * 4096 ≤ x → x < (p + l.state + 4095) / 4096 * 4096 + k * 4096 →
      (∃ w, Fits ro calm (claimedS (x / 4096) h) s w) ∧ foreign h (x / 4096) = false ∧ foreign (claimedS (x / 4096) h) (x / 4096) = true ∧
        s.σ.vm.prot (x / 4096) = σ.vm.prot (x / 4096) := fun x h1 h2 =>
    claimedS_steps hg hI htl (G.mapped x h1 h2) (G.apart x h1 h2) st
  refine ⟨fun x h1 h2 => ?_, fun x h1 h2 => ?_, fun x h1 h2 => ?_, fun x h1 h2 q u hl hu => ?_⟩
  · rw [(all x h1 (by omega)).2.2.2]; exact G.before x h1 h2
  · rw [(all x (by omega) (by omega)).2.2.2]
    exact G.state x h1 h2
  · rw [(all x (by omega) h2).2.2.2]; exact G.behind x h1 h2
  · obtain ⟨⟨w, f⟩, _, hf, _⟩ := all x h1 h2
    rw [← claimedS_live (x / 4096)] at hl
    rw [← f.σ] at hu
    have hu := hu.is hro f.linked hl
    by_contra hc
    exact (f.others _ hf).1 (user_ours hro f.linked.inv (hu.byte hro f.linked (x := x) (by omega) (by omega)))

end

/-- The steps of an example. -/
theorem runActs_any_steps {ro : Ro} {ar : Nat → Nat} {calm : Bool} {as : List ExAct} {h0 h h' : List Ev} {s0 s s' : Sys} (r : Steps ro ar calm anyClient h0 s0 h s)
    (e : runActs ro ar calm (fun _ _ _ => true) as h s = some (h', s')) : Steps ro ar calm anyClient h0 s0 h' s' := by
  induction as generalizing h s with
  | nil => cases e; exact r
  | cons a as ih =>
    unfold runActs at e
    by_cases k : (a.okB calm && true) = true
    · rw [if_pos k] at e
      rw [Bool.and_eq_true] at k
      revert e
      cases hs : s.step ro ar a.act with
      | ok x =>
        obtain ⟨s1, e1⟩ := x
        exact fun e => ih (r.step (ExAct.okB_ok k.1) trivial hs) e
      | fatal m => intro e; cases e
      | segv => intro e; cases e
      | ub m => intro e; cases e
      | hang => intro e; cases e
    · rw [if_neg k] at e; cases e

/-- The hypotheses are met: two blocks, of which one is freed and then written to, and a large block with an alignment of 64 KiB. -/
example : ∃ h s, (initSlowPath (exCfg true false) exLayout).run exInitChoices St.zero ⟨0, false⟩ = .ok (exSt, ⟨0, false⟩, exRo true false) ∧
    Good (exCfg true false) (fun t => t % 4) ∧
    Steps (exRo true false) (fun t => t % 4) false anyClient [] ⟨exSt, fun _ => ⟨0, false⟩⟩ h s ∧ h.length = 5 ∧ (live h exB).isSome := by
  have key : ((exRun true false false (fun _ _ _ => true) [.call 0 (.malloc 100) 0, .call 4 (.malloc 97) 0, .call 0 (.free exA) 0, .store exA 7#8,
      .call 0 (.posixMemalign 65536 100) 0x100000000000]).any fun x => x.1.length == 5 && (live x.1 exB).isSome) = true := by decide +kernel
  rw [Option.any_eq_true] at key
  obtain ⟨⟨h, s⟩, k1, k2⟩ := key
  rw [Bool.and_eq_true] at k2
  exact ⟨h, s, exInitRun (by decide) (by decide) (by decide) (by decide), exGood true false, runActs_any_steps .refl k1, by simpa using k2.1, k2.2⟩

/-- The hypotheses are met: initialisation, and then a thread allocates two blocks while another has begun a call. -/
example : ∃ h s, (initSlowPath (exCfg true false) exLayout).run exInitChoices St.zero ⟨0, false⟩ = .ok (exSt, ⟨0, false⟩, exRo true false) ∧
    Good (exCfg true false) (fun t => t % 4) ∧
    CSteps (exRo true false) (fun t => t % 4) true [] ⟨exSt, fun _ => ⟨0, false⟩, fun _ => none, fun _ => exSt⟩ h s ∧ h.length = 5 ∧
    ∃ p, ((hold h).live p).isSome := by
  have key : ((exRunC true false [.inv 0 (.malloc 100) 0, .go 0 99 0, .ret 0, .inv 0 (.malloc 100) 0, .inv 1 (.malloc 20000) 0, .go 0 99 0, .ret 0]).any fun x =>
      x.1.length == 5 && x.1.any fun e => match e with | .ret _ _ (.ptr p) => ((hold x.1).live p).isSome | _ => false) = true := by decide +kernel
  rw [Option.any_eq_true] at key
  obtain ⟨⟨h, s⟩, k1, k2⟩ := key
  rw [Bool.and_eq_true] at k2
  refine ⟨h, s, exInitRun (by decide) (by decide) (by decide) (by decide), exGood true false, runC_steps k1 (by simp), by simpa using k2.1, ?_⟩
  obtain ⟨e, _, he⟩ := List.any_eq_true.mp k2.2
  split at he
  · exact ⟨_, he⟩
  · cases he

end HM
