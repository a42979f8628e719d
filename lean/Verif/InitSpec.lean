import Verif.Init
import Verif.RoGeo
import Verif.GhostSmall
/-
Initialisation establishes the invariant.
-/
namespace HM

/-- `Q` holds if `P` returns. -/
def Prog.ens {α : Type} : Prog α → (α → St → Prop) → Tl → St → Prop
  | .ret a, Q, _, σ => Q a σ
  | .act f k, Q, tl, σ => ∀ ch, match f ch σ tl with
      | .ok (σ', tl', b) => (k b).ens Q tl' σ'
      | _ => True

theorem Prog.ens_run {α : Type} {P : Prog α} {Q : α → St → Prop} {tl tl' : Tl} {σ σ' : St} {chs : Nat → Choice} {a : α}
    (h : P.ens Q tl σ) (hr : P.run chs σ tl = .ok (σ', tl', a)) : Q a σ' := by
  induction P generalizing chs tl σ with
  | ret b => simp only [Prog.run, Res.ok.injEq, Prod.mk.injEq] at hr; obtain ⟨rfl, _, rfl⟩ := hr; exact h
  | act f k ih =>
    have h := h (chs 0)
    simp only [Prog.run] at hr
    revert h hr
    cases f (chs 0) σ tl with
    | ok r => obtain ⟨σ1, tl1, b⟩ := r; intro h hr; exact ih b h hr
    | fatal _ => intro _ hr; exact absurd hr (by simp)
    | segv => intro _ hr; exact absurd hr (by simp)
    | ub _ => intro _ hr; exact absurd hr (by simp)
    | hang => intro _ hr; exact absurd hr (by simp)

theorem Prog.ens_bind {α β : Type} {P : Prog α} {f : α → Prog β} {Q : β → St → Prop} {tl : Tl} {σ : St}
    (h : P.ens (fun a σ => ∀ tl, (f a).ens Q tl σ) tl σ) : (P >>= f).ens Q tl σ := by
  show (P.bind f).ens Q tl σ
  induction P generalizing tl σ with
  | ret a => exact h tl
  | act g k ih =>
    intro ch
    have h := h ch
    revert h
    cases g ch σ tl with
    | ok r => obtain ⟨σ1, tl1, b⟩ := r; exact ih b
    | fatal _ => exact id
    | segv => exact id
    | ub _ => exact id
    | hang => exact id

theorem Prog.ens_mono {α : Type} {P : Prog α} {Q Q' : α → St → Prop} {tl : Tl} {σ : St} (h : P.ens Q tl σ)
    (hq : ∀ a σ, Q a σ → Q' a σ) : P.ens Q' tl σ := by
  induction P generalizing tl σ with
  | ret a => exact hq _ _ h
  | act g k ih =>
    intro ch
    have h := h ch
    revert h
    cases g ch σ tl with
    | ok r => obtain ⟨σ1, tl1, b⟩ := r; exact ih b
    | fatal _ => exact id
    | segv => exact id
    | ub _ => exact id
    | hang => exact id

/-- Only memory differs from the state before initialisation. -/
def OnlyVm (σ : St) (vm : Vm) : Prop := σ = { St.zero with vm := vm }

/-- What matters of the memory while initialisation is in progress: pages in `M` are mapped, pages in `S` are inaccessible
and zero. -/
structure InitVm (M S : Nat → Prop) (σ : St) : Prop where
  rest : ∃ vm, OnlyVm σ vm
  mapped : ∀ pg, M pg → σ.vm.prot pg ≠ .unmapped
  none : ∀ pg, S pg → σ.vm.prot pg = .none
  zero : ∀ x, S (x / PAGE) → σ.vm.mem x = 0#8

theorem InitVm.withVm {M S M' S' : Nat → Prop} {σ : St} {vm : Vm} (h : InitVm M S σ) (h1 : ∀ pg, M' pg → vm.prot pg ≠ .unmapped)
    (h2 : ∀ pg, S' pg → vm.prot pg = .none) (h3 : ∀ x, S' (x / PAGE) → vm.mem x = 0#8) : InitVm M' S' { σ with vm := vm } := by
  obtain ⟨v, e⟩ := h.rest
  exact ⟨⟨vm, by unfold OnlyVm at *; rw [e]⟩, h1, h2, h3⟩

theorem ens_sysMap {M S : Nat → Prop} {size : Nat} {tl : Tl} {σ : St} (h : InitVm M S σ) :
    (sysMap size).ens (fun r σ' => match r with
      | none => InitVm M S σ'
      | some a => a % PAGE = 0 ∧ PAGE ≤ a ∧ a + size ≤ ADDR_END ∧ (∀ pg, inPages a size pg → ¬ M pg) ∧
          InitVm (fun pg => M pg ∨ inPages a size pg) (fun pg => S pg ∨ inPages a size pg) σ') tl σ := by
  intro ch
  dsimp only
  cases e : memoryMap σ.vm (ch.sys 0) ch.addr size with
  | fatal _ => trivial
  | segv => trivial
  | ub _ => trivial
  | hang => trivial
  | ok r =>
    obtain ⟨vm, r⟩ := r
    unfold memoryMap at e
    revert e
    cases ch.sys 0 with
    | other => exact fun e => absurd e (by simp)
    | enomem => intro e; simp only [Res.ok.injEq, Prod.mk.injEq] at e; obtain ⟨rfl, rfl⟩ := e; exact h
    | ok =>
      simp only
      by_cases h0 : size = 0
      · rw [if_pos h0]; exact fun e => absurd e (by simp)
      rw [if_neg h0]
      by_cases hc : ch.addr % PAGE = 0 ∧ PAGE ≤ ch.addr ∧ ch.addr + size ≤ ADDR_END ∧
          Vm.allPages ch.addr size (fun pg => σ.vm.prot pg == .unmapped) = true
      · rw [if_pos hc]
        intro e
        simp only [Res.ok.injEq, Prod.mk.injEq] at e; obtain ⟨rfl, rfl⟩ := e
        obtain ⟨c1, c2, c3, c4⟩ := hc
        have c4 : ∀ pg, inPages ch.addr size pg → σ.vm.prot pg = .unmapped := fun pg hp => by
          simpa using Vm.allPages_iff.mp c4 pg hp
        refine ⟨c1, c2, c3, fun pg hp hM => h.mapped pg hM (c4 pg hp), ?_⟩
        refine h.withVm (fun pg hp => ?_) (fun pg hp => ?_) (fun x hx => ?_)
        · show (if inPages _ _ pg then Prot.none else _) ≠ _
          by_cases hh : inPages ch.addr size pg
          · rw [if_pos hh]; simp
          · rw [if_neg hh]; exact h.mapped pg (hp.resolve_right hh)
        · show (if inPages _ _ pg then Prot.none else _) = _
          by_cases hh : inPages ch.addr size pg
          · rw [if_pos hh]
          · rw [if_neg hh]; exact h.none pg (hp.resolve_right hh)
        · show (if inPages _ _ (x / PAGE) then 0#8 else _) = _
          by_cases hh : inPages ch.addr size (x / PAGE)
          · rw [if_pos hh]
          · rw [if_neg hh]; exact h.zero x (hx.resolve_right hh)
      · rw [if_neg hc]
        intro e
        simp only [Res.ok.injEq, Prod.mk.injEq] at e; obtain ⟨rfl, rfl⟩ := e
        exact h

theorem ens_sysCall {Q : Bool → St → Prop} {se : Bool} {f : Choice → Vm → Res (Vm × Bool)} {tl : Tl} {σ : St}
    (h : ∀ ch vm b, f ch σ.vm = .ok (vm, b) → Q b { σ with vm := vm }) : (sysCall se f).ens Q tl σ := by
  intro ch
  have h := h ch
  revert h
  dsimp only
  cases f ch σ.vm with
  | ok r => obtain ⟨vm, b⟩ := r; intro h; exact h vm b rfl
  | fatal _ => exact fun _ => trivial
  | segv => exact fun _ => trivial
  | ub _ => exact fun _ => trivial
  | hang => exact fun _ => trivial

theorem ens_sysProtect {M S : Nat → Prop} {a n : Nat} {tl : Tl} {σ : St} (h : InitVm M S σ) (hd : ∀ pg, inPages a n pg → ¬ S pg) :
    (sysProtect a n).ens (fun _ σ' => InitVm M S σ') tl σ := by
  refine ens_sysCall fun ch vm b e => ?_
  unfold memoryProtectRw at e
  by_cases hp : a % PAGE ≠ 0
  · rw [if_pos hp] at e; exact absurd e (by simp)
  rw [if_neg hp] at e
  revert e
  cases ch.sys 0 with
  | other => exact fun e => absurd e (by simp)
  | enomem => intro e; simp only [Res.ok.injEq, Prod.mk.injEq] at e; obtain ⟨rfl, rfl⟩ := e; exact h
  | ok =>
    simp only
    by_cases hc : Vm.allPages a n (fun pg => σ.vm.prot pg != .unmapped) = true
    · rw [if_pos hc]
      intro e; simp only [Res.ok.injEq, Prod.mk.injEq] at e; obtain ⟨rfl, rfl⟩ := e
      refine h.withVm (fun pg hp => ?_) (fun pg hp => ?_) (fun x hx => h.zero x hx)
      · show (if inPages _ _ pg then Prot.rw else _) ≠ _
        by_cases hh : inPages a n pg
        · rw [if_pos hh]; simp
        · rw [if_neg hh]; exact h.mapped pg hp
      · show (if inPages _ _ pg then Prot.rw else _) = _
        rw [if_neg fun hh => hd pg hh hp]; exact h.none pg hp
    · rw [if_neg hc]
      intro e; simp only [Res.ok.injEq, Prod.mk.injEq] at e; obtain ⟨rfl, rfl⟩ := e; exact h

theorem ens_sysUnmap {M S : Nat → Prop} {a n : Nat} {tl : Tl} {σ : St} (h : InitVm M S σ) (hd : ∀ pg, inPages a n pg → ¬ S pg) :
    (sysUnmap a n).ens (fun _ σ' => InitVm (fun _ => False) S σ') tl σ := by
  have h' : InitVm (fun _ => False) S σ := ⟨h.rest, fun _ => False.elim, h.none, h.zero⟩
  refine ens_sysCall fun ch vm b e => ?_
  unfold memoryUnmap at e
  by_cases hp : a % PAGE ≠ 0 ∨ n = 0
  · rw [if_pos hp] at e; exact absurd e (by simp)
  rw [if_neg hp] at e
  revert e
  cases ch.sys 0 with
  | other => exact fun e => absurd e (by simp)
  | enomem => intro e; simp only [Res.ok.injEq, Prod.mk.injEq] at e; obtain ⟨rfl, rfl⟩ := e; exact h'
  | ok =>
    intro e; simp only [Res.ok.injEq, Prod.mk.injEq] at e; obtain ⟨rfl, rfl⟩ := e
    refine h.withVm (fun pg hp => hp.elim) (fun pg hp => ?_) (fun x hx => h.zero x hx)
    show (if inPages _ _ pg then Prot.unmapped else _) = _
    rw [if_neg fun hh => hd pg hh hp]; exact h.none pg hp

theorem ens_sysPurge {M S : Nat → Prop} {a n : Nat} {tl : Tl} {σ : St} (h : InitVm M S σ) :
    (sysPurge a n).ens (fun _ σ' => InitVm M S σ') tl σ := by
  refine ens_sysCall fun ch vm b e => ?_
  unfold memoryPurge at e
  by_cases hp : a % PAGE ≠ 0
  · rw [if_pos hp] at e; exact absurd e (by simp)
  rw [if_neg hp] at e
  revert e
  cases ch.sys 0 with
  | other => exact fun e => absurd e (by simp)
  | enomem => intro e; simp only [Res.ok.injEq, Prod.mk.injEq] at e; obtain ⟨rfl, rfl⟩ := e; exact h
  | ok =>
    intro e; simp only [Res.ok.injEq, Prod.mk.injEq] at e; obtain ⟨rfl, rfl⟩ := e
    refine h.withVm (fun pg hp => h.mapped pg hp) (fun pg hp => h.none pg hp) (fun x hx => ?_)
    show (if inPages _ _ (x / PAGE) then 0#8 else _) = _
    split
    · rfl
    · exact h.zero x hx

theorem ens_die {α : Type} {Q : α → St → Prop} {msg : String} {tl : Tl} {σ : St} : (die msg : Prog α).ens Q tl σ := fun _ => trivial

/-- What initialisation establishes about memory. -/
structure InitPost (g : Cfg) (ro : Ro) (σ : St) : Prop where
  cfg : ro.g = g
  mod : ro.slabStart % PAGE = 0
  lo : PAGE ≤ ro.slabStart
  hi : ro.slabEnd ≤ ADDR_END
  gap : ∃ d : Nat → Nat → Nat, ∀ a c, ro.gap a c = gapOf g (d a c)
  vm : InitVm (fun _ => False) (inPages ro.slabStart (ro.arenaSize * ro.g.nArena)) σ

theorem initAddGuards_some {n g r : Nat} (h : addGuards n g = some r) : r = n + g + g := by
  unfold addGuards at h
  split at h
  · exact absurd h (by simp)
  · split at h
    · exact absurd h (by simp)
    · simpa using h.symm

theorem ens_allocatePages {n guard : Nat} {tl : Tl} {σ : St} (h0 : InitVm (fun _ => False) (fun _ => False) σ) :
    (allocatePages n guard).ens (fun r σ => match r with
      | none => True
      | some p => InitVm (inPages (p - guard) (n + guard * 2)) (fun _ => False) σ) tl σ := by
  unfold allocatePages
  cases hg : addGuards n guard with
  | none => exact Prog.ens_bind fun ch => fun _ => trivial
  | some real =>
    have := initAddGuards_some hg
    refine Prog.ens_bind (Prog.ens_mono (ens_sysMap h0) fun r σ h tl => ?_)
    cases r with
    | none => trivial
    | some a =>
      obtain ⟨h1, h2, h3, _, h4⟩ := h
      have h5 : InitVm (inPages (a + guard - guard) (n + guard * 2)) (fun _ => False) σ :=
        ⟨h4.rest, fun pg hp => h4.mapped pg (Or.inr (by
          rw [this]; rw [Nat.add_sub_cancel] at hp; rwa [show n + guard + guard = n + guard * 2 by omega])),
          fun _ => False.elim, fun _ => False.elim⟩
      refine Prog.ens_bind (Prog.ens_mono (ens_sysProtect h5 fun _ _ => id) fun b σ h tl => ?_)
      cases b with
      | true => exact Prog.ens_bind (Prog.ens_mono (ens_sysUnmap h fun _ _ => id) fun _ _ _ _ => trivial)
      | false => exact h

theorem ens_reservePages {M : Nat → Prop} {n guard : Nat} {tl : Tl} {σ : St} (h : InitVm M (fun _ => False) σ) :
    (reservePages n guard).ens (fun r σ => match r with
      | none => True
      | some _ => InitVm M (fun _ => False) σ) tl σ := by
  unfold reservePages
  cases hg : addGuards n guard with
  | none => exact Prog.ens_bind fun ch => fun _ => trivial
  | some real =>
    refine Prog.ens_bind (Prog.ens_mono (ens_sysMap h) fun r σ h tl => ?_)
    cases r with
    | none => trivial
    | some a =>
      obtain ⟨_, _, _, _, h4⟩ := h
      exact ⟨h4.rest, fun pg hp => h4.mapped pg (Or.inl hp), fun _ => False.elim, fun _ => False.elim⟩

theorem ens_deallocatePages {M S : Nat → Prop} {p n guard : Nat} {tl : Tl} {σ : St} (h : InitVm M S σ)
    (hd : ∀ pg, inPages (p - guard) (n + guard * 2) pg → ¬ S pg) :
    (deallocatePages p n guard).ens (fun _ σ => InitVm (fun _ => False) S σ) tl σ := by
  refine Prog.ens_bind (Prog.ens_mono (ens_sysUnmap h hd) fun b σ h tl => ?_)
  cases b with
  | true => exact Prog.ens_bind (Prog.ens_mono (ens_sysPurge h) fun _ σ' h' _ => h')
  | false => exact h

theorem Initialised.post {g : Cfg} {ro : Ro} {σ : St} (h : Initialised g ro σ) : InitPost g ro σ := by
  obtain ⟨l, chs, tl, tl', h⟩ := h
  refine Prog.ens_run (Q := InitPost g) ?_ h
  clear h
  have h0 : InitVm (fun _ => False) (fun _ => False) St.zero := ⟨⟨St.zero.vm, rfl⟩, fun _ => False.elim, fun _ => False.elim, fun _ => False.elim⟩
  unfold initSlowPath
  generalize PAGE = G
  refine Prog.ens_bind (Prog.ens_mono (ens_allocatePages h0) fun r σ h => ?_)
  cases r with
  | none => exact fun _ => ens_die
  | some rng =>
    intro tl
    refine Prog.ens_bind fun ch tl => ?_
    refine Prog.ens_bind (Prog.ens_mono (ens_reservePages h) fun r σ h => ?_)
    cases r with
    | none => exact fun _ => ens_die
    | some state =>
      intro tl
      refine Prog.ens_bind (Prog.ens_mono (ens_sysProtect h fun _ _ => id) fun b σ h tl => ?_)
      cases b with
      | true => exact ens_die
      | false =>
        refine Prog.ens_bind (Prog.ens_mono (ens_sysProtect h fun _ _ => id) fun b σ h tl => ?_)
        cases b with
        | true => exact ens_die
        | false =>
          refine Prog.ens_bind (Prog.ens_mono (ens_sysMap h) fun r σ h tl => ?_)
          cases r with
          | none => exact ens_die
          | some slab =>
            obtain ⟨h1, h2, h3, h4, h5⟩ := h
            refine Prog.ens_bind fun ch tl => ?_
            have h6 : InitVm (inPages (rng - G) (l.rng + G * 2)) (inPages slab (g.realClassRegionSize * nClasses g * g.nArena)) σ :=
              ⟨h5.rest, fun pg hp => h5.mapped pg (Or.inl hp), fun pg hp => h5.none pg (Or.inr hp), fun x hx => h5.zero x (Or.inr hx)⟩
            have hd : ∀ pg, inPages (rng - G) (l.rng + G * 2) pg → ¬ inPages slab (g.realClassRegionSize * nClasses g * g.nArena) pg :=
              fun pg hp hs => h4 pg hs hp
            refine Prog.ens_bind (Prog.ens_mono (ens_deallocatePages h6 hd) fun _ σ h tl => ?_)
            exact ⟨rfl, h1, h2, h3, ⟨_, fun _ _ => rfl⟩, h⟩

/-! ### The initial state satisfies the invariant -/

/-- Ghost state after initialisation. -/
def Gh.init (ro : Ro) (calm : Bool) : Gh where
  own := fun pg => if inPages ro.slabStart (ro.arenaSize * ro.g.nArena) pg then .slab else .none
  blk := fun _ => .nobody
  eff := fun _ => none
  loc := fun _ _ _ => .fresh
  ql := fun _ _ _ _ => .none
  untracked := 0
  frees := fun _ _ => 0
  pushes := 0
  env := (calm, none)

theorem Initialised.roOk {g : Cfg} {ro : Ro} {σ : St} (h : Initialised g ro σ) (hv : g.Valid) (hq : 1 ≤ g.freeSlabsQ) : RoOk ro := by
  have p := h.post
  have e := p.cfg
  obtain ⟨d, hd⟩ := p.gap
  have gap : ∀ a c, ro.gap a c % PAGE = 0 ∧ PAGE ≤ ro.gap a c ∧ ro.gap a c + g.classRegionSize + PAGE ≤ g.realClassRegionSize := by
    intro a c
    rw [hd a c]
    unfold gapOf Cfg.realClassRegionSize
    rw [show g.classRegionSize * 2 - g.classRegionSize = g.classRegionSize by omega]
    have h1 := hv.classRegionMin
    have h2 := hv.classRegionPage
    have h3 := Nat.mod_lt (d a c) (show g.classRegionSize / PAGE - 1 > 0 by omega)
    generalize d a c % (g.classRegionSize / PAGE - 1) = m at h3
    omega
  refine ⟨by rw [e]; exact hv, by rw [e]; exact hq, p.mod, p.lo, p.hi, fun a c _ _ => (gap a c).1, fun a c _ _ => (gap a c).2.1,
    fun a c _ _ => by rw [e]; exact (gap a c).2.2⟩

theorem Bitmap.zero_bit (k : Nat) : Bitmap.zero.bit k = false := by simp [Bitmap.zero, Bitmap.bit]

theorem scInv_init {g : Cfg} {base c : Nat} (hv : g.Valid) (hc : c < nClasses g) :
    SCInv g base c SC.init [] [] [] (fun _ => .fresh) (fun _ _ => .none) where
  lists := by
    constructor <;> simp [SC.init, Dll, Sll]
  etot := by simp [SC.init]
  bits := by
    have na : ∀ i, ¬ SC.init.Active g i := fun i h => absurd h.1 (by simp [SC.init])
    exact {
      ung := by simp [SC.init]
      unglt := hv.guardSlabsInterval
      mpos := Or.inl rfl
      mle := Nat.zero_le _
      mcount := Nat.zero_le _
      act := fun i h => absurd h (na i)
      fresh := fun i => iff_of_true rfl (na i)
      zero := fun i _ => rfl
      cnt := fun i => ((bitCount_zero_iff _ _).mpr fun k _ => Bitmap.zero_bit k).symm
      hi := fun i k _ => Bitmap.zero_bit k }
  cntOk := fun i => rfl
  qarr := {
    bit := fun i k => iff_of_false (by simp [SC.quar, SC.init, Slab.zero, Bitmap.zero_bit]) (by simp)
    sub := fun i k h => absurd rfl h
    r1 := fun _ _ _ h => by cases h
    r2 := fun j h => absurd rfl h
    q1 := fun _ _ _ h => by cases h
    q2 := fun j h => absurd rfl h
    idx := fun h => len_pos hc hv.slabQQueue h }
  notransit := fun _ _ h => by cases h

theorem Initialised.inv {g : Cfg} {ro : Ro} {σ : St} (h : Initialised g ro σ) (hv : g.Valid) (hq : 1 ≤ g.freeSlabsQ) (calm : Bool) :
    GInv ro ⟨σ, Gh.init ro calm⟩ ∧ StatOk ro ⟨σ, Gh.init ro calm⟩ ∧ Content ro ⟨σ, Gh.init ro calm⟩ := by
  have hro := h.roOk hv hq
  have p := h.post
  obtain ⟨vm, hvm⟩ := p.vm.rest
  have hnone := p.vm.none
  have hzero := p.vm.zero
  unfold OnlyVm at hvm
  subst hvm
  have hs : ∀ r, ¬ RegTable.init.Has r := fun r h => by
    obtain ⟨h1, i, _, h2⟩ := h
    exact h1 (by rw [← h2]; rfl)
  have hoff : ∀ a c, a < ro.g.nArena → c < nClasses ro.g → ∀ i x, i < ro.g.metaMax c →
      inRange (slabAddr (ro.regionStart a c) (ro.g.slabSize c) i) (ro.g.slabSize c) x → vm.prot (x / PAGE) = .none ∧ vm.mem x = 0#8 := by
    intro a c ha hc i x hi hx
    have h1 := hro.region_cell ha hc (slab_in_class hro ha hc hi hx)
    have h2 := hro.cell_slab ha hc h1
    have h3 := (hro.inSlab_pages x).mpr h2
    exact ⟨hnone _ h3, hzero _ h3⟩
  refine ⟨?_, ?_, ?_⟩
  · exact {
      cls := fun a c ha hc => ⟨[], [], [], scInv_init hro.valid hc⟩
      clsVm := fun a c ha hc => ⟨fun i x h => absurd h (by simp [Gh.init, Loc.isRw]), fun i x hi _ hx => hoff a c ha hc i x hi hx⟩
      gaps := fun pg h _ => by
        have : inPages ro.slabStart (ro.arenaSize * ro.g.nArena) pg := by
          by_contra hc
          simp [Gh.init, hc] at h
        exact hnone pg this
      rt := RegTable.init_inv _
      reg := fun r h => absurd h (hs r)
      slabOwn := fun pg => by simp [Gh.init]
      regOwn := fun pg p => iff_of_false (by simp only [Gh.init]; split <;> simp) (by rintro ⟨r, h, _⟩; exact hs r h)
      regRw := fun r pg h => absurd h (hs r)
      regLo := fun r pg h => absurd h (hs r)
      regHi := fun r pg h => absurd h (hs r)
      qrOwn := fun pg i => iff_of_false (by simp only [Gh.init]; split <;> simp) (by rintro ⟨_, h, _⟩; exact h rfl)
      qqOwn := fun pg i => iff_of_false (by simp only [Gh.init]; split <;> simp) (by rintro ⟨_, h, _⟩; exact h rfl)
      qrOk := fun i _ h => absurd rfl h
      qqOk := fun i _ h => absurd rfl h
      qi := fun h => Nat.pos_of_ne_zero h
      mapped := fun pg h => by
        have : inPages ro.slabStart (ro.arenaSize * ro.g.nArena) pg := by
          by_contra hc
          simp [Gh.init, hc] at h
        show vm.prot pg ≠ _
        rw [hnone pg this]; simp
      blk := fun p => iff_of_false (by simp [Gh.init]) (by
        rintro (⟨a, c, i, k, _, _, _, h⟩ | ⟨s, g, h⟩)
        · exact absurd h (by simp [SC.live, SC.used, St.zero, SC.init, Slab.zero, Bitmap.zero_bit])
        · exact hs _ h)
      eff := fun p n h => absurd h (by simp [Gh.init])
      cache := fun _ a c _ _ => Nat.zero_le _
      qprot := fun _ pg i h => by
        by_cases hc : inPages ro.slabStart (ro.arenaSize * ro.g.nArena) pg <;> simp [Gh.init, hc] at h }
  · constructor
    · intro _ a c _ _
      have h0 : liveCount ro.g c SC.init = 0 := by
        simp [liveCount, SC.live, SC.used, SC.init, Slab.zero, Bitmap.zero_bit]
      refine ⟨⟨?_, ?_⟩, ?_, rfl⟩
      · show SC.init.allocated = _ * liveCount ro.g c SC.init % _
        rw [h0]; simp [SC.init]
      · have : rwCount ro.g c (fun _ => .fresh) = 0 := by simp [rwCount, Loc.isRw]
        show SC.init.slabAllocated = _ * rwCount ro.g c (fun _ => .fresh) % _
        rw [this]; simp [SC.init]
      · show SC.init.nmalloc = (0 + liveCount ro.g c SC.init) % _
        rw [h0]; rfl
    · intro _
      refine ⟨by show 0 < W64; decide, ?_⟩
      have : RegTable.init.regs = ∅ := by
        unfold RegTable.regs
        rw [Finset.filter_eq_empty_iff]
        intro r hr
        obtain ⟨i, hi, rfl⟩ := Finset.mem_image.mp hr
        simp only [not_not]; rfl
      show _ = regionBytes RegTable.init % W64
      unfold regionBytes
      rw [this]
      rfl
  · intro a c ha hc i k hi hk _
    refine ⟨fun _ _ x hx => ?_, fun h => absurd h (by simp [SC.live, SC.used, St.zero, SC.init, Slab.zero, Bitmap.zero_bit])⟩
    have hx' : inRange (slotAddr ro.g (ro.regionStart a c) c i k) (ro.g.slotSize c) x := by unfold inRange at *; omega
    exact (hoff a c ha hc i x hi (slot_range_slab hc hk hx')).2

end HM
