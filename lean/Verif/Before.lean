import Verif.InitSpec
import Verif.Seq
/-
Initialisation in a process in which others have mapped memory before: it ends in the state that it would have reached without them, with their memory added.
-/
namespace HM

/-- Memory as others left it, and where they have none, the memory `vm`. -/
def Vm.over (vm0 vm : Vm) : Vm :=
  ⟨fun pg => if vm0.prot pg = .unmapped then vm.prot pg else vm0.prot pg, fun x => if vm0.prot (x / PAGE) = .unmapped then vm.mem x else vm0.mem x⟩

/-- A state of the allocator together with the memory of others. -/
def St.over (vm0 : Vm) (σ : St) : St := { σ with vm := vm0.over σ.vm }

/-- If `P` returns in the presence of the memory of others, it also returns in its absence, for some choices of the environment, and the two states
differ only in that memory; `Q` holds of the state without it. -/
def Prog.sim {α : Type} (vm0 : Vm) : Prog α → (α → St → Prop) → Tl → St → Prop
  | .ret a, Q, _, σ => Q a σ
  | .act f k, Q, tl, σ => ∀ ch, match f ch (σ.over vm0) tl with
      | .ok (σ1, tl', b) => ∃ ch' σ', f ch' σ tl = .ok (σ', tl', b) ∧ σ1 = σ'.over vm0 ∧ (k b).sim vm0 Q tl' σ'
      | _ => True

variable {vm0 : Vm}

theorem Prog.sim_run {α : Type} {P : Prog α} {Q : α → St → Prop} {tl tl' : Tl} {σ σ1 : St} {chs : Nat → Choice} {a : α}
    (h : P.sim vm0 Q tl σ) (hr : P.run chs (σ.over vm0) tl = .ok (σ1, tl', a)) :
    ∃ chs' σ', P.run chs' σ tl = .ok (σ', tl', a) ∧ σ1 = σ'.over vm0 ∧ Q a σ' := by
  induction P generalizing chs tl σ with
  | ret b =>
    simp only [Prog.run, Res.ok.injEq, Prod.mk.injEq] at hr
    obtain ⟨rfl, rfl, rfl⟩ := hr
    exact ⟨chs, σ, rfl, rfl, h⟩
  | act f k ih =>
    have h := h (chs 0)
    simp only [Prog.run] at hr
    revert h hr
    cases f (chs 0) (σ.over vm0) tl with
    | ok r =>
      obtain ⟨σ2, tl2, b⟩ := r
      rintro ⟨ch', σ', h1, rfl, h2⟩ hr
      obtain ⟨chs', σ3, h3, h4⟩ := ih b h2 hr
      refine ⟨fun n => match n with | 0 => ch' | n + 1 => chs' n, σ3, ?_, h4⟩
      simp only [Prog.run, h1]
      exact h3
    | fatal _ => intro _ hr; exact absurd hr (by simp)
    | segv => intro _ hr; exact absurd hr (by simp)
    | ub _ => intro _ hr; exact absurd hr (by simp)
    | hang => intro _ hr; exact absurd hr (by simp)

theorem Prog.sim_bind {α β : Type} {P : Prog α} {f : α → Prog β} {Q : β → St → Prop} {tl : Tl} {σ : St}
    (h : P.sim vm0 (fun a σ => ∀ tl, (f a).sim vm0 Q tl σ) tl σ) : (P >>= f).sim vm0 Q tl σ := by
  show (P.bind f).sim vm0 Q tl σ
  induction P generalizing tl σ with
  | ret a => exact h tl
  | act g k ih =>
    intro ch
    have h := h ch
    revert h
    cases g ch (σ.over vm0) tl with
    | ok r => obtain ⟨σ1, tl1, b⟩ := r; rintro ⟨ch', σ', h1, h2, h3⟩; exact ⟨ch', σ', h1, h2, ih b h3⟩
    | fatal _ => exact id
    | segv => exact id
    | ub _ => exact id
    | hang => exact id

theorem Prog.sim_mono {α : Type} {P : Prog α} {Q Q' : α → St → Prop} {tl : Tl} {σ : St} (h : P.sim vm0 Q tl σ)
    (hq : ∀ a σ, Q a σ → Q' a σ) : P.sim vm0 Q' tl σ := by
  induction P generalizing tl σ with
  | ret a => exact hq _ _ h
  | act g k ih =>
    intro ch
    have h := h ch
    revert h
    cases g ch (σ.over vm0) tl with
    | ok r => obtain ⟨σ1, tl1, b⟩ := r; rintro ⟨ch', σ', h1, h2, h3⟩; exact ⟨ch', σ', h1, h2, ih b h3⟩
    | fatal _ => exact id
    | segv => exact id
    | ub _ => exact id
    | hang => exact id

/-- The allocator has mapped no page of others, and the pages in `M` are not theirs. -/
structure Apart (vm0 : Vm) (M : Nat → Prop) (σ : St) : Prop where
  off : ∀ pg, vm0.prot pg ≠ .unmapped → σ.vm.prot pg = .unmapped
  mine : ∀ pg, M pg → vm0.prot pg = .unmapped

theorem Apart.sub {M M' : Nat → Prop} {σ : St} (h : Apart vm0 M σ) (hM : ∀ pg, M' pg → M pg) : Apart vm0 M' σ := ⟨h.off, fun pg hp => h.mine pg (hM pg hp)⟩

theorem over_setProt {vm : Vm} {a n : Nat} {pr : Prot} (h : ∀ pg, inPages a n pg → vm0.prot pg = .unmapped) :
    (vm0.over vm).setProt a n pr = vm0.over (vm.setProt a n pr) := by
  unfold Vm.over Vm.setProt
  congr 1
  funext pg
  by_cases hp : inPages a n pg
  · simp only [if_pos hp, h pg hp]; rfl
  · simp only [if_neg hp]

theorem over_zeroPages {vm : Vm} {a n : Nat} (h : ∀ pg, inPages a n pg → vm0.prot pg = .unmapped) :
    (vm0.over vm).zeroPages a n = vm0.over (vm.zeroPages a n) := by
  unfold Vm.over Vm.zeroPages
  congr 1
  funext x
  by_cases hp : inPages a n (x / PAGE)
  · simp only [if_pos hp, h _ hp]; rfl
  · simp only [if_neg hp]

theorem Apart.setProt {M : Nat → Prop} {σ : St} {a n : Nat} {pr : Prot} (h : Apart vm0 M σ) (hp : ∀ pg, inPages a n pg → vm0.prot pg = .unmapped) :
    Apart vm0 M { σ with vm := σ.vm.setProt a n pr } := by
  refine ⟨fun pg h0 => ?_, h.mine⟩
  show (if inPages a n pg then pr else σ.vm.prot pg) = _
  rw [if_neg fun hq => h0 (hp pg hq)]
  exact h.off pg h0

theorem sim_sysMap {M : Nat → Prop} {size : Nat} {tl : Tl} {σ : St} (h : Apart vm0 M σ) :
    (sysMap size).sim vm0 (fun r σ' => match r with
      | none => True
      | some a => a % PAGE = 0 ∧ PAGE ≤ a ∧ Apart vm0 (fun pg => M pg ∨ inPages a size pg) σ') tl σ := by
  intro ch
  dsimp only
  cases e : memoryMap (σ.over vm0).vm (ch.sys 0) ch.addr size with
  | fatal _ => trivial
  | segv => trivial
  | ub _ => trivial
  | hang => trivial
  | ok r =>
    obtain ⟨vm, r⟩ := r
    unfold memoryMap at e
    revert e
    cases hs : ch.sys 0 with
    | other => exact fun e => absurd e (by simp)
    | enomem =>
      intro e; simp only [Res.ok.injEq, Prod.mk.injEq] at e; obtain ⟨rfl, rfl⟩ := e
      exact ⟨{ ch with sys := fun _ => .enomem }, σ, rfl, rfl, trivial⟩
    | ok =>
      simp only
      by_cases h0 : size = 0
      · rw [if_pos h0]; exact fun e => absurd e (by simp)
      rw [if_neg h0]
      by_cases hc : ch.addr % PAGE = 0 ∧ PAGE ≤ ch.addr ∧ ch.addr + size ≤ ADDR_END ∧
          Vm.allPages ch.addr size (fun pg => (σ.over vm0).vm.prot pg == .unmapped) = true
      · rw [if_pos hc]
        intro e
        simp only [Res.ok.injEq, Prod.mk.injEq] at e; obtain ⟨rfl, rfl⟩ := e
        obtain ⟨c1, c2, c3, c4⟩ := hc
        have c5 : ∀ pg, inPages ch.addr size pg → vm0.prot pg = .unmapped ∧ σ.vm.prot pg = .unmapped := fun pg hp => by
          have := Vm.allPages_iff.mp c4 pg hp
          simp only [St.over, Vm.over, beq_iff_eq] at this
          split at this
          · exact ⟨by assumption, this⟩
          · contradiction
        have c6 : Vm.allPages ch.addr size (fun pg => σ.vm.prot pg == .unmapped) = true :=
          Vm.allPages_iff.mpr fun pg hp => by simp only [beq_iff_eq]; exact (c5 pg hp).2
        have c7 := fun pg hp => (c5 pg hp).1
        have c8 : memoryMap σ.vm (ch.sys 0) ch.addr size = .ok ((σ.vm.setProt ch.addr size .none).zeroPages ch.addr size, some ch.addr) := by
          unfold memoryMap
          simp only [hs, if_neg h0]
          rw [if_pos ⟨c1, c2, c3, c6⟩]
        refine ⟨ch, { σ with vm := (σ.vm.setProt ch.addr size .none).zeroPages ch.addr size }, by rw [c8], ?_, c1, c2, ?_⟩
        · show { σ with vm := ((vm0.over σ.vm).setProt ch.addr size .none).zeroPages ch.addr size } = _
          rw [over_setProt c7, over_zeroPages c7]; rfl
        · exact ⟨fun pg hp => (h.setProt (pr := .none) c7).off pg hp, fun pg hp => hp.elim (h.mine pg) (c7 pg)⟩
      · rw [if_neg hc]
        intro e
        simp only [Res.ok.injEq, Prod.mk.injEq] at e; obtain ⟨rfl, rfl⟩ := e
        exact ⟨{ ch with sys := fun _ => .enomem }, σ, rfl, rfl, trivial⟩

theorem sim_sysCall {Q : Bool → St → Prop} {se : Bool} {f : Choice → Vm → Res (Vm × Bool)} {tl : Tl} {σ : St}
    (h : ∀ ch vm1 b, f ch (vm0.over σ.vm) = .ok (vm1, b) → ∃ vm, f ch σ.vm = .ok (vm, b) ∧ vm1 = vm0.over vm ∧ Q b { σ with vm := vm }) :
    (sysCall se f).sim vm0 Q tl σ := by
  intro ch
  have h : ∀ vm1 b, f ch (σ.over vm0).vm = .ok (vm1, b) → ∃ vm, f ch σ.vm = .ok (vm, b) ∧ vm1 = vm0.over vm ∧ Q b { σ with vm := vm } := h ch
  revert h
  dsimp only
  cases f ch (σ.over vm0).vm with
  | ok r =>
    obtain ⟨vm1, b⟩ := r
    intro h
    obtain ⟨vm, h1, rfl, h2⟩ := h vm1 b rfl
    exact ⟨ch, { σ with vm := vm }, by simp only [h1], rfl, h2⟩
  | fatal _ => exact fun _ => trivial
  | segv => exact fun _ => trivial
  | ub _ => exact fun _ => trivial
  | hang => exact fun _ => trivial

theorem sim_sysProtect {M : Nat → Prop} {a n : Nat} {tl : Tl} {σ : St} (h : Apart vm0 M σ) (hd : ∀ pg, inPages a n pg → M pg) :
    (sysProtect a n).sim vm0 (fun _ σ' => Apart vm0 M σ') tl σ := by
  refine sim_sysCall fun ch vm b e => ?_
  have hm := fun pg hp => h.mine pg (hd pg hp)
  unfold memoryProtectRw at e ⊢
  by_cases hp : a % PAGE ≠ 0
  · rw [if_pos hp] at e; exact absurd e (by simp)
  rw [if_neg hp] at e ⊢
  revert e
  cases ch.sys 0 with
  | other => exact fun e => absurd e (by simp)
  | enomem => intro e; simp only [Res.ok.injEq, Prod.mk.injEq] at e; obtain ⟨rfl, rfl⟩ := e; exact ⟨_, rfl, rfl, h⟩
  | ok =>
    have hi : Vm.allPages a n (fun pg => (vm0.over σ.vm).prot pg != .unmapped) = Vm.allPages a n (fun pg => σ.vm.prot pg != .unmapped) := by
      rw [Bool.eq_iff_iff, Vm.allPages_iff, Vm.allPages_iff]
      refine forall_congr' fun pg => forall_congr' fun hp => ?_
      simp only [Vm.over, hm pg hp, if_true]
    simp only [hi]
    split
    · intro e; simp only [Res.ok.injEq, Prod.mk.injEq] at e; obtain ⟨rfl, rfl⟩ := e
      exact ⟨_, rfl, over_setProt hm, h.setProt hm⟩
    · intro e; simp only [Res.ok.injEq, Prod.mk.injEq] at e; obtain ⟨rfl, rfl⟩ := e
      exact ⟨_, rfl, rfl, h⟩

theorem sim_sysUnmap {M : Nat → Prop} {a n : Nat} {tl : Tl} {σ : St} (h : Apart vm0 M σ) (hd : ∀ pg, inPages a n pg → M pg) :
    (sysUnmap a n).sim vm0 (fun _ σ' => Apart vm0 M σ') tl σ := by
  refine sim_sysCall fun ch vm b e => ?_
  have hm := fun pg hp => h.mine pg (hd pg hp)
  unfold memoryUnmap at e ⊢
  by_cases hp : a % PAGE ≠ 0 ∨ n = 0
  · rw [if_pos hp] at e; exact absurd e (by simp)
  rw [if_neg hp] at e ⊢
  revert e
  cases ch.sys 0 with
  | other => exact fun e => absurd e (by simp)
  | enomem => intro e; simp only [Res.ok.injEq, Prod.mk.injEq] at e; obtain ⟨rfl, rfl⟩ := e; exact ⟨_, rfl, rfl, h⟩
  | ok =>
    intro e; simp only [Res.ok.injEq, Prod.mk.injEq] at e; obtain ⟨rfl, rfl⟩ := e
    exact ⟨_, rfl, over_setProt hm, h.setProt hm⟩

theorem sim_sysPurge {M : Nat → Prop} {a n : Nat} {tl : Tl} {σ : St} (h : Apart vm0 M σ) (hd : ∀ pg, inPages a n pg → M pg) :
    (sysPurge a n).sim vm0 (fun _ σ' => Apart vm0 M σ') tl σ := by
  refine sim_sysCall fun ch vm b e => ?_
  have hm := fun pg hp => h.mine pg (hd pg hp)
  unfold memoryPurge at e ⊢
  by_cases hp : a % PAGE ≠ 0
  · rw [if_pos hp] at e; exact absurd e (by simp)
  rw [if_neg hp] at e ⊢
  revert e
  cases ch.sys 0 with
  | other => exact fun e => absurd e (by simp)
  | enomem => intro e; simp only [Res.ok.injEq, Prod.mk.injEq] at e; obtain ⟨rfl, rfl⟩ := e; exact ⟨_, rfl, rfl, h⟩
  | ok =>
    intro e; simp only [Res.ok.injEq, Prod.mk.injEq] at e; obtain ⟨rfl, rfl⟩ := e
    exact ⟨_, rfl, over_zeroPages hm, h.off, h.mine⟩

theorem sim_die {α : Type} {Q : α → St → Prop} {msg : String} {tl : Tl} {σ : St} : (die msg : Prog α).sim vm0 Q tl σ := fun _ => trivial

theorem sim_allocatePages {n guard : Nat} {tl : Tl} {σ : St} (hgd : guard % PAGE = 0) (h0 : Apart vm0 (fun _ => False) σ) :
    (allocatePages n guard).sim vm0 (fun r σ => match r with
      | none => True
      | some p => Apart vm0 (inPages (p - guard) (n + guard * 2)) σ) tl σ := by
  unfold allocatePages
  cases hg : addGuards n guard with
  | none => exact Prog.sim_bind fun ch => ⟨ch, σ, rfl, rfl, fun _ => trivial⟩
  | some real =>
    have := initAddGuards_some hg
    refine Prog.sim_bind (Prog.sim_mono (sim_sysMap h0) fun r σ h tl => ?_)
    cases r with
    | none => trivial
    | some a =>
      obtain ⟨h1, h2, h3⟩ := h
      have h4 : Apart vm0 (inPages a real) σ := h3.sub fun pg => Or.inr
      refine Prog.sim_bind (Prog.sim_mono (sim_sysProtect h4 fun pg hp => ?_) fun b σ h tl => ?_)
      · unfold inPages at hp ⊢; omega
      cases b with
      | true => exact Prog.sim_bind (Prog.sim_mono (sim_sysUnmap h fun _ => id) fun _ _ _ _ => trivial)
      | false =>
        refine h.sub fun pg hp => ?_
        rw [Nat.add_sub_cancel] at hp
        rwa [this, show n + guard + guard = n + guard * 2 by omega]

theorem sim_reservePages {M : Nat → Prop} {n guard : Nat} {tl : Tl} {σ : St} (hgd : guard % PAGE = 0) (h : Apart vm0 M σ) :
    (reservePages n guard).sim vm0 (fun r σ => match r with
      | none => True
      | some p => p % PAGE = 0 ∧ Apart vm0 (fun pg => M pg ∨ inPages p n pg) σ) tl σ := by
  unfold reservePages
  cases hg : addGuards n guard with
  | none => exact Prog.sim_bind fun ch => ⟨ch, σ, rfl, rfl, fun _ => trivial⟩
  | some real =>
    have := initAddGuards_some hg
    refine Prog.sim_bind (Prog.sim_mono (sim_sysMap h) fun r σ h tl => ?_)
    cases r with
    | none => trivial
    | some a =>
      obtain ⟨h1, h2, h3⟩ := h
      refine ⟨by omega, h3.sub fun pg hp => hp.imp_right fun hp => ?_⟩
      unfold inPages at hp ⊢; omega

theorem sim_deallocatePages {M : Nat → Prop} {p n guard : Nat} {tl : Tl} {σ : St} (h : Apart vm0 M σ)
    (hd : ∀ pg, inPages (p - guard) (n + guard * 2) pg → M pg) :
    (deallocatePages p n guard).sim vm0 (fun _ σ => Apart vm0 (fun _ => False) σ) tl σ := by
  refine Prog.sim_bind (Prog.sim_mono (sim_sysUnmap h hd) fun b σ h tl => ?_)
  cases b with
  | true =>
    refine Prog.sim_bind (Prog.sim_mono (sim_sysPurge h fun pg hp => hd pg ?_) fun _ σ' h' _ => h'.sub fun _ => False.elim)
    unfold inPages at hp ⊢; omega
  | false => exact h.sub fun _ => False.elim

theorem init_over_sim (vm0 : Vm) (g : Cfg) (l : Layout) (tl : Tl) :
    ∃ I, I = initSlowPath g l ∧ I.sim vm0 (fun _ σ => Apart vm0 (fun _ => False) σ) tl St.zero := by
  refine ⟨_, rfl, ?_⟩
  have h0 : Apart vm0 (fun _ => False) St.zero := ⟨fun _ _ => rfl, fun _ => False.elim⟩
  have hN : l.tabOff + 128 * 24 ≤ l.state := l.fits
  unfold initSlowPath
  generalize hP : PAGE = G
  have hG : G % 4096 = 0 := by rw [← hP]
  generalize 128 * 24 = N at hN ⊢
  refine Prog.sim_bind (Prog.sim_mono (sim_allocatePages hG h0) fun r σ h => ?_)
  cases r with
  | none => exact fun _ => sim_die
  | some rng =>
    intro tl
    refine Prog.sim_bind fun ch => ⟨ch, σ, rfl, rfl, fun tl => ?_⟩
    refine Prog.sim_bind (Prog.sim_mono (sim_reservePages (Nat.mul_mod_left _ _) h) fun r σ h => ?_)
    cases r with
    | none => exact fun _ => sim_die
    | some state =>
      intro tl
      obtain ⟨h1, h⟩ := h
      refine Prog.sim_bind (Prog.sim_mono (sim_sysProtect h fun pg hp => Or.inr ?_) fun b σ h tl => ?_)
      · unfold inPages at hp ⊢; omega
      cases b with
      | true => exact sim_die
      | false =>
        refine Prog.sim_bind (Prog.sim_mono (sim_sysProtect h fun pg hp => Or.inr ?_) fun b σ h tl => ?_)
        · unfold inPages at hp ⊢; omega
        cases b with
        | true => exact sim_die
        | false =>
          refine Prog.sim_bind (Prog.sim_mono (sim_sysMap h) fun r σ h tl => ?_)
          cases r with
          | none => exact sim_die
          | some slab =>
            obtain ⟨_, _, h5⟩ := h
            refine Prog.sim_bind fun ch => ⟨ch, σ, rfl, rfl, fun tl => ?_⟩
            exact Prog.sim_bind (Prog.sim_mono (sim_deallocatePages h5 fun pg hp => Or.inl (Or.inl hp)) fun _ σ h tl => h)

/-- Initialisation next to the memory of others. -/
theorem init_over {g : Cfg} {l : Layout} {tl tl' : Tl} {σ1 : St} {ro : Ro} {chs : Nat → Choice}
    (hr : (initSlowPath g l).run chs (St.zero.over vm0) tl = .ok (σ1, tl', ro)) :
    ∃ σ, Initialised g ro σ ∧ σ1 = σ.over vm0 ∧ ∀ pg, vm0.prot pg ≠ .unmapped → σ.vm.prot pg = .unmapped := by
  obtain ⟨I, eI, key⟩ := init_over_sim vm0 g l tl
  have hI : ∀ {chs tl tl' σ ro}, (initSlowPath g l).run chs St.zero tl = .ok (σ, tl', ro) → Initialised g ro σ := fun h => ⟨l, _, _, _, h⟩
  rw [← eI] at hr hI
  obtain ⟨chs', σ, h1, h2, h3⟩ := Prog.sim_run key hr
  exact ⟨σ, hI h1, h2, h3.off⟩

/-! ### The state after initialisation is reachable -/

/-- What others can have mapped: finitely many pages. The memory of the rest reads as zero when it is mapped. -/
structure Vm.Others (vm : Vm) : Prop where
  fin : ∃ L : List Nat, ∀ pg, vm.prot pg ≠ .unmapped → pg ∈ L
  zero : ∀ x, vm.prot (x / PAGE) = .unmapped → vm.mem x = 0#8

theorem St.over_zero {vm : Vm} (h : vm.Others) : St.zero.over vm = { St.zero with vm := vm } := by
  unfold St.over
  congr 1
  obtain ⟨p, m⟩ := vm
  unfold Vm.over
  congr 1
  · funext pg
    split
    · rename_i e; exact e.symm
    · rfl
  · funext x
    split
    · rename_i e; exact (h.zero x e).symm
    · rfl

theorem Vm.Others.appStore {vm : Vm} (h : vm.Others) (x : Nat) (v : BitVec 8) : (vm.appStore x v).Others ∧ (vm.appStore x v).prot = vm.prot := by
  unfold Vm.appStore
  split
  · rename_i e
    refine ⟨⟨h.fin, fun y hy => ?_⟩, rfl⟩
    show (if y = x then v else vm.mem y) = 0#8
    rw [if_neg]
    · exact h.zero y hy
    · rintro rfl
      have hy : vm.prot (y / PAGE) = .unmapped := hy
      rw [e] at hy; cases hy
  · exact ⟨h, rfl⟩

/-- The pages of others in the list. -/
def Vm.part (vm : Vm) (L : List Nat) : Vm := ⟨fun pg => if pg ∈ L then vm.prot pg else .unmapped, vm.mem⟩

theorem live_foreign {h : List Ev} (hf : ∀ e ∈ h, ∃ pg m, e = .foreign pg m) (p : Nat) : live h p = none := by
  induction h with
  | nil => rfl
  | cons e h ih =>
    obtain ⟨pg, m, rfl⟩ := hf e List.mem_cons_self
    exact ih fun e he => hf e (List.mem_cons_of_mem _ he)

theorem reach_part {g : Cfg} {ro : Ro} {ar : Nat → Nat} {calm : Bool} {σ : St} {tl : Nat → Tl} (hi : Initialised g ro σ) (htl : ∀ t, (tl t).unsealed = false)
    (hoff : ∀ pg, vm0.prot pg ≠ .unmapped → σ.vm.prot pg = .unmapped) (L : List Nat) :
    ∃ h, (∀ e ∈ h, ∃ pg m, e = .foreign pg m) ∧ (∀ pg, foreign h pg = (decide (pg ∈ L) && vm0.prot pg != .unmapped)) ∧
      ∀ D, Reach g ro ar calm D h ⟨σ.over (vm0.part L), tl⟩ := by
  induction L with
  | nil =>
    refine ⟨[], fun _ he => (by cases he), fun pg => by simp [foreign], ?_⟩
    have : σ.over (vm0.part []) = σ := by simp [St.over, Vm.over, Vm.part]
    rw [this]
    exact fun D => .init hi htl
  | cons a L ih =>
    obtain ⟨h, h1, h2, h3⟩ := ih
    by_cases ha : vm0.prot a = .unmapped ∨ a ∈ L
    · refine ⟨h, h1, fun pg => ?_, ?_⟩
      · rw [h2]
        by_cases e : pg = a
        · subst e
          rcases ha with ha | ha
          · simp [ha]
          · simp [ha]
        · simp [e]
      · have : vm0.part (a :: L) = vm0.part L := by
          unfold Vm.part
          congr 1
          funext pg
          by_cases e : pg = a
          · subst e
            rcases ha with ha | ha <;> simp [ha]
          · simp [e]
        rw [this]; exact h3
    · rw [not_or] at ha
      obtain ⟨ha, hL⟩ := ha
      refine ⟨.foreign a (vm0.prot a != .unmapped) :: h, ?_, fun pg => ?_, ?_⟩
      · intro e he
        rcases List.mem_cons.mp he with rfl | he
        · exact ⟨_, _, rfl⟩
        · exact h1 e he
      · show (if pg = a then _ else foreign h pg) = _
        rw [h2]
        by_cases e : pg = a
        · subst e; simp
        · simp [e]
      · have hf : Foreign h (σ.over (vm0.part L)).vm a := by
          right
          show (if (vm0.part L).prot a = .unmapped then σ.vm.prot a else (vm0.part L).prot a) = _
          have : (vm0.part L).prot a = .unmapped := if_neg hL
          rw [if_pos this]
          exact hoff a ha
        have h4 := fun D => Reach.other (h3 D) a (vm0.prot a) vm0.mem hf
        have e : (σ.over (vm0.part (a :: L))) = { σ.over (vm0.part L) with vm := (σ.over (vm0.part L)).vm.foreign a (vm0.prot a) vm0.mem } := by
          unfold St.over
          congr 1
          unfold Vm.over Vm.foreign Vm.part
          congr 1
          · funext pg
            by_cases e : pg = a
            · subst e; simp [ha]
            · simp [e]
          · funext x
            by_cases e : x / PAGE = a
            · rw [e]; simp [ha]
            · simp [e]
        rw [e]
        exact h4

/-- If the allocator is initialised after others have mapped memory, the state is one that is reached by initialising it first. -/
theorem reach_over {g : Cfg} {l : Layout} {ar : Nat → Nat} {calm : Bool} {tl0 tl' : Tl} {σ1 : St} {ro : Ro} {chs : Nat → Choice} {tl : Nat → Tl}
    (ho : vm0.Others) (hr : (initSlowPath g l).run chs { St.zero with vm := vm0 } tl0 = .ok (σ1, tl', ro)) (htl : ∀ t, (tl t).unsealed = false) :
    ∃ h, (∀ e ∈ h, ∃ pg m, e = .foreign pg m) ∧ (∀ pg, foreign h pg = (vm0.prot pg != .unmapped)) ∧ ∀ D, Reach g ro ar calm D h ⟨σ1, tl⟩ := by
  rw [← St.over_zero ho] at hr
  obtain ⟨σ, h1, rfl, h2⟩ := init_over hr
  clear hr
  obtain ⟨L, hL⟩ := ho.fin
  obtain ⟨h, h3, h4, h5⟩ := reach_part (ar := ar) (calm := calm) h1 htl h2 L
  have e : vm0.part L = vm0 := by
    obtain ⟨p, m⟩ := vm0
    unfold Vm.part
    congr 1
    funext pg
    by_cases h : pg ∈ L
    · rw [if_pos h]
    · rw [if_neg h]
      by_contra hn
      exact h (hL pg fun e => hn e.symm)
  rw [e] at h5
  refine ⟨h, h3, fun pg => ?_, h5⟩
  rw [h4]
  by_cases hp : pg ∈ L
  · simp [hp]
  · have : vm0.prot pg = .unmapped := by
      by_contra hn
      exact hp (hL pg hn)
    simp [this]

end HM
