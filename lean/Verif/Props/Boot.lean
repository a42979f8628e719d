import Verif.Boot
import Verif.Before
import Verif.Props.Robust
/-
C04 for a process that is not initialised. C48: all that is proved about reachable states holds from the start of the process.
-/
namespace HM

variable {g : Cfg} {l : Layout} {ro : Ro} {ar : Nat → Nat} {calm : Bool} {h : List Ev} {b : Boot} {t : Nat} {chs : Nat → Choice}

/-! ### Programs that return or abort -/

/-- All actions return, leaving alone whether metadata is accessible, or abort. -/
def Prog.Tame {α : Type} : Prog α → Prop
  | .ret _ => True
  | .act f k => ∀ ch σ tl, match f ch σ tl with
      | .ok (_, tl', b) => tl'.unsealed = tl.unsealed ∧ (k b).Tame
      | .fatal _ => True
      | _ => False

theorem Tame.bind {α β : Type} {P : Prog α} {f : α → Prog β} (hP : P.Tame) (hf : ∀ a, (f a).Tame) : (P >>= f).Tame := by
  induction P with
  | ret a => exact hf a
  | act F k ih =>
    intro ch σ tl
    have := hP ch σ tl
    revert this
    cases F ch σ tl with
    | ok x => exact fun h => ⟨h.1, ih _ h.2⟩
    | _ => exact id

theorem Tame.run {α : Type} {P : Prog α} (hP : P.Tame) (chs : Nat → Choice) (σ : St) (tl : Tl) :
    (∃ σ' tl' a, P.run chs σ tl = .ok (σ', tl', a) ∧ tl'.unsealed = tl.unsealed) ∨ ∃ m, P.run chs σ tl = .fatal m := by
  induction P generalizing chs σ tl with
  | ret a => exact Or.inl ⟨σ, tl, a, rfl, rfl⟩
  | act F k ih =>
    have := hP (chs 0) σ tl
    unfold Prog.run
    revert this
    cases e : F (chs 0) σ tl with
    | ok x =>
      obtain ⟨σ1, tl1, b⟩ := x
      intro h
      rcases ih b h.2 (fun n => chs (n + 1)) σ1 tl1 with ⟨σ', tl', a, h1, h2⟩ | h1
      · exact Or.inl ⟨σ', tl', a, h1, h2.trans h.1⟩
      · exact Or.inr h1
    | fatal m => exact fun _ => Or.inr ⟨m, rfl⟩
    | _ => exact False.elim

theorem Tame.pure {α : Type} (a : α) : (Pure.pure a : Prog α).Tame := trivial

theorem Tame.die {α : Type} (m : String) : (HM.die m : Prog α).Tame := fun _ _ _ => trivial

theorem Tame.setErrno (e : Errno) : (HM.setErrno e).Tame := fun _ _ _ => ⟨rfl, trivial⟩

theorem Tame.sysCall (lab : Bool) {f : Choice → Vm → Res (Vm × Bool)} (hf : ∀ ch vm, (∃ x, f ch vm = .ok x) ∨ ∃ m, f ch vm = .fatal m) :
    (HM.sysCall lab f).Tame := by
  intro ch σ tl
  rcases hf ch σ.vm with ⟨x, h⟩ | ⟨m, h⟩
  · simp only [h]
    exact ⟨trivial, trivial⟩
  · simp only [h]

theorem Tame.sysMap (n : Nat) : (HM.sysMap n).Tame := by
  intro ch σ tl
  have h : (∃ vm o, memoryMap σ.vm (ch.sys 0) ch.addr n = .ok (vm, o)) ∨ ∃ m, memoryMap σ.vm (ch.sys 0) ch.addr n = .fatal m := by
    unfold memoryMap
    cases ch.sys 0 with
    | other => exact Or.inr ⟨_, rfl⟩
    | enomem => exact Or.inl ⟨_, _, rfl⟩
    | ok =>
      simp only
      split
      · exact Or.inr ⟨_, rfl⟩
      · split <;> exact Or.inl ⟨_, _, rfl⟩
  rcases h with ⟨vm, o, h⟩ | ⟨m, h⟩
  · simp only [h]
    cases o <;> exact ⟨rfl, trivial⟩
  · simp only [h]

theorem Tame.sysUnmap (a n : Nat) : (HM.sysUnmap a n).Tame := by
  refine Tame.sysCall _ fun ch vm => ?_
  unfold memoryUnmap
  split
  · exact Or.inr ⟨_, rfl⟩
  · cases ch.sys 0
    · exact Or.inl ⟨_, rfl⟩
    · exact Or.inl ⟨_, rfl⟩
    · exact Or.inr ⟨_, rfl⟩

theorem Tame.sysProtect (a n : Nat) : (HM.sysProtect a n).Tame := by
  refine Tame.sysCall _ fun ch vm => ?_
  unfold memoryProtectRw
  split
  · exact Or.inr ⟨_, rfl⟩
  · cases ch.sys 0
    · simp only
      split
      · exact Or.inl ⟨_, rfl⟩
      · exact Or.inl ⟨_, rfl⟩
    · exact Or.inl ⟨_, rfl⟩
    · exact Or.inr ⟨_, rfl⟩

theorem Tame.sysPurge (a n : Nat) : (HM.sysPurge a n).Tame := by
  refine Tame.sysCall _ fun ch vm => ?_
  unfold memoryPurge
  by_cases h : a % PAGE ≠ 0
  · simp only [if_pos h]
    exact Or.inr ⟨_, rfl⟩
  · simp only [if_neg h]
    cases ch.sys 0
    · exact Or.inl ⟨_, rfl⟩
    · exact Or.inl ⟨_, rfl⟩
    · exact Or.inr ⟨_, rfl⟩

theorem Tame.allocatePages (n gd : Nat) : (HM.allocatePages n gd).Tame := by
  unfold HM.allocatePages
  cases addGuards n gd with
  | none => exact Tame.bind (Tame.setErrno _) fun _ => Tame.pure _
  | some k =>
    refine Tame.bind (Tame.sysMap _) fun r => ?_
    cases r with
    | none => exact Tame.pure _
    | some a =>
      refine Tame.bind (Tame.sysProtect _ _) fun b => ?_
      cases b with
      | true => exact Tame.bind (Tame.sysUnmap _ _) fun _ => Tame.pure _
      | false => exact Tame.pure _

theorem Tame.reservePages (n gd : Nat) : (HM.reservePages n gd).Tame := by
  unfold HM.reservePages
  cases addGuards n gd with
  | none => exact Tame.bind (Tame.setErrno _) fun _ => Tame.pure _
  | some k =>
    refine Tame.bind (Tame.sysMap _) fun r => ?_
    cases r with
    | none => exact Tame.pure _
    | some a => exact Tame.pure _

theorem Tame.deallocatePages (p n gd : Nat) : (HM.deallocatePages p n gd).Tame := by
  refine Tame.bind (Tame.sysUnmap _ _) fun b => ?_
  cases b with
  | true => exact Tame.bind (Tame.sysPurge _ _) fun _ => Tame.pure _
  | false => exact Tame.pure _

theorem Tame.initSlowPath (g : Cfg) (l : Layout) : ∃ I, I = HM.initSlowPath g l ∧ I.Tame := by
  refine ⟨_, rfl, ?_⟩
  unfold HM.initSlowPath
  generalize PAGE = G
  generalize 128 * 24 = N
  refine Tame.bind (Tame.allocatePages _ _) fun r => ?_
  cases r with
  | none => exact Tame.die _
  | some rng =>
    refine Tame.bind (fun _ _ _ => ⟨rfl, trivial⟩) fun gd => ?_
    refine Tame.bind (Tame.reservePages _ _) fun r => ?_
    cases r with
    | none => exact Tame.die _
    | some state =>
      refine Tame.bind (Tame.sysProtect _ _) fun b => ?_
      cases b with
      | true => exact Tame.die _
      | false =>
        refine Tame.bind (Tame.sysProtect _ _) fun b => ?_
        cases b with
        | true => exact Tame.die _
        | false =>
          refine Tame.bind (Tame.sysMap _) fun r => ?_
          cases r with
          | none => exact Tame.die _
          | some slab =>
            refine Tame.bind (fun _ _ _ => ⟨rfl, trivial⟩) fun gap => ?_
            exact Tame.bind (Tame.deallocatePages _ _ _) fun _ => Tame.pure _

/-- Running one program after the other. -/
theorem Tame.run_bind {α β : Type} {P : Prog α} (hP : P.Tame) (f : α → Prog β) (chs : Nat → Choice) (σ : St) (tl : Tl) :
    (∃ σ' tl' a k, P.run chs σ tl = .ok (σ', tl', a) ∧ tl'.unsealed = tl.unsealed ∧
      (P >>= f).run chs σ tl = (f a).run (fun n => chs (n + k)) σ' tl') ∨ ∃ m, (P >>= f).run chs σ tl = .fatal m := by
  induction P generalizing chs σ tl with
  | ret a => exact Or.inl ⟨σ, tl, a, 0, rfl, rfl, rfl⟩
  | act F k ih =>
    have := hP (chs 0) σ tl
    show (∃ σ' tl' a j, (Prog.act F k).run chs σ tl = .ok (σ', tl', a) ∧ tl'.unsealed = tl.unsealed ∧
      (Prog.act F fun b => (k b).bind f).run chs σ tl = (f a).run (fun n => chs (n + j)) σ' tl') ∨
      ∃ m, (Prog.act F fun b => (k b).bind f).run chs σ tl = .fatal m
    simp only [Prog.run]
    revert this
    cases e : F (chs 0) σ tl with
    | ok x =>
      obtain ⟨σ1, tl1, b⟩ := x
      intro h
      rcases ih b h.2 (fun n => chs (n + 1)) σ1 tl1 with ⟨σ', tl', a, j, h1, h2, h3⟩ | h1
      · refine Or.inl ⟨σ', tl', a, j + 1, h1, h2.trans h.1, ?_⟩
        rw [show (fun n => chs (n + (j + 1))) = fun n => chs (n + j + 1) from rfl]
        exact h3
      · exact Or.inr h1
    | fatal m => exact fun _ => Or.inr ⟨m, rfl⟩
    | _ => exact False.elim

/-- The calls that initialise the allocator. -/
def Call.inits : Call → Prop
  | .malloc _ | .posixMemalign _ _ | .alignedAlloc _ _ | .valloc _ => True
  | .calloc n k => n * k < W64
  | .pvalloc n => pageAlign n ≠ 0
  | .realloc p _ => p = 0
  | _ => False

/-- What a call does in a process that is not initialised: it returns without a block, leaving everything as it is but
for errno; or it aborts; or it initialises the allocator and goes on. -/
theorem bootProg_cases (g : Cfg) (l : Layout) (a : Nat) (c : Call) (chs : Nat → Choice) (σ : St) (tl : Tl) :
    (∃ tl' r, (c.bootProg g l a).run chs σ tl = .ok (σ, tl', none, r) ∧ tl'.unsealed = tl.unsealed ∧ ¬ c.inits ∧
      ∀ u h, (∀ p, live h p = none) → ∀ p, live (.call u c r :: h) p = none) ∨
    (∃ m, (c.bootProg g l a).run chs σ tl = .fatal m) ∨
    (c.inits ∧ c.bootProg g l a = initThen g l a c) := by
  have e0 : ∀ r, r.block = none → ∀ u h, (∀ p, live h p = none) → ∀ p, live (.call u c r :: h) p = none := by
    intro r hr u h hl p
    refine liveStep_none (hl p) fun v c' y e => ?_
    cases e
    rw [hr]; exact nofun
  have ret : ∀ r, (∀ u h, (∀ p, live h p = none) → ∀ p, live (.call u c r :: h) p = none) → c.bootProg g l a = notInit r → ¬ c.inits →
      (∃ tl' r, (c.bootProg g l a).run chs σ tl = .ok (σ, tl', none, r) ∧ tl'.unsealed = tl.unsealed ∧ ¬ c.inits ∧
        ∀ u h, (∀ p, live h p = none) → ∀ p, live (.call u c r :: h) p = none) := fun r hr e hi => ⟨tl, r, by rw [e]; rfl, rfl, hi, hr⟩
  have nomem : c.bootProg g l a = (do setErrno ENOMEM; notInit (.ptr 0)) → ¬ c.inits →
      (∃ tl' r, (c.bootProg g l a).run chs σ tl = .ok (σ, tl', none, r) ∧ tl'.unsealed = tl.unsealed ∧ ¬ c.inits ∧
        ∀ u h, (∀ p, live h p = none) → ∀ p, live (.call u c r :: h) p = none) :=
    fun e hi => ⟨{ tl with errno := ENOMEM }, .ptr 0, by rw [e]; rfl, rfl, hi, e0 _ rfl⟩
  have die : c.bootProg g l a = enforceInit → ∃ m, (c.bootProg g l a).run chs σ tl = .fatal m := fun e => ⟨_, by rw [e]; rfl⟩
  cases c with
  | malloc n => exact Or.inr (Or.inr ⟨trivial, rfl⟩)
  | posixMemalign al n => exact Or.inr (Or.inr ⟨trivial, rfl⟩)
  | alignedAlloc al n => exact Or.inr (Or.inr ⟨trivial, rfl⟩)
  | valloc n => exact Or.inr (Or.inr ⟨trivial, rfl⟩)
  | calloc n k =>
    by_cases h : W64 ≤ n * k
    · exact Or.inl (nomem (if_pos h) (Nat.not_lt.mpr h))
    · exact Or.inr (Or.inr ⟨Nat.lt_of_not_le h, if_neg h⟩)
  | pvalloc n =>
    by_cases h : pageAlign n = 0
    · exact Or.inl (nomem (if_pos h) fun h' => h' h)
    · exact Or.inr (Or.inr ⟨h, if_neg h⟩)
  | realloc p n =>
    by_cases h : p = 0
    · exact Or.inr (Or.inr ⟨h, if_pos h⟩)
    · by_cases h1 : g.maxSlab < adjustSizeForCanary g n ∧ getLargeSizeClass g (adjustSizeForCanary g n) = 0
      · exact Or.inl (nomem ((if_neg h).trans (if_pos h1)) h)
      · exact Or.inr (Or.inl (die ((if_neg h).trans (if_neg h1))))
  | free p =>
    by_cases h : p = 0
    · exact Or.inl (ret _ (e0 _ rfl) (if_pos h) id)
    · exact Or.inr (Or.inl (die (if_neg h)))
  | freeSized p n =>
    by_cases h : p = 0
    · exact Or.inl (ret _ (e0 _ rfl) (if_pos h) id)
    · exact Or.inr (Or.inl (die (if_neg h)))
  | usableSize p =>
    by_cases h : p = 0
    · exact Or.inl (ret _ (e0 _ rfl) (if_pos h) id)
    · exact Or.inr (Or.inl (die (if_neg h)))
  | objectSize p =>
    by_cases h : p = 0
    · exact Or.inl (ret _ (e0 _ rfl) (if_pos h) id)
    · exact Or.inl (ret _ (e0 _ rfl) (if_neg h) id)
  | objectSizeFast p => exact Or.inl (ret _ (e0 _ rfl) rfl id)
  | trim => exact Or.inl (ret _ (e0 _ rfl) rfl id)
  | mallinfo => exact Or.inl (ret _ (e0 _ rfl) rfl id)

/-! ### From the start of the process to the machine that the other theorems speak of -/

theorem live_append {h0 : List Ev} (hl : ∀ p, live h0 p = none) (h1 : List Ev) : live (h1 ++ h0) = live h1 := by
  induction h1 with
  | nil => exact funext hl
  | cons e h1 ih =>
    show liveStep (live (h1 ++ h0)) e = liveStep (live h1) e
    rw [ih]

/-- How the application of an initialised process, `D'`, must be related to the one from the start. -/
structure Follows (D : List Ev → Boot → Act → Prop) (D' : Ro → Client) : Prop where
  up : ∀ ro h0 h1 h2 s a, (∀ p, live h0 p = none) → (∀ p, live h2 p = none) → D (h1 ++ h0) ⟨some ro, s⟩ a → D' ro (h1 ++ h2) s a
  first : ∀ ro h0 h2 s s' t c chs k, (∀ p, live h0 p = none) → (∀ p, live h2 p = none) → c.inits → D h0 ⟨none, s⟩ (.call t c chs) →
    D' ro h2 s' (.call t c fun n => chs (n + k))

/-- The states of a process that is not initialised: only others have mapped memory, and no block is live. -/
structure Early (h : List Ev) (b : Boot) : Prop where
  others : b.s.σ.vm.Others
  zero : b.s.σ = { St.zero with vm := b.s.σ.vm }
  mapped : ∀ pg, foreign h pg = (b.s.σ.vm.prot pg != .unmapped)
  sealed : ∀ t, (b.s.tl t).unsealed = false
  none : ∀ p, live h p = none

theorem run_map {α β : Type} (P : Prog α) (f : α → β) (chs : Nat → Choice) (σ : St) (tl : Tl) :
    (P >>= fun a => (pure (f a) : Prog β)).run chs σ tl =
      match P.run chs σ tl with
      | .ok (σ, tl, a) => .ok (σ, tl, f a)
      | .fatal m => .fatal m
      | .segv => .segv
      | .ub w => .ub w
      | .hang => .hang := by
  induction P generalizing chs σ tl with
  | ret a => rfl
  | act F k ih =>
    show (Prog.act F fun b => (k b).bind fun a => (pure (f a) : Prog β)).run chs σ tl = _
    simp only [Prog.run]
    cases F (chs 0) σ tl with
    | ok x => exact ih _ _ _ _
    | _ => rfl

/-- The first allocating call: initialisation, then the call in the initial state. -/
theorem boot_first {c : Call} (hf : Early h b) (e : c.bootProg g l (ar t) = initThen g l (ar t) c) (hb : b.ro = none) (chs : Nat → Choice) :
    (∃ m, b.call g l ar t c chs = .fatal m) ∨
    ∃ ro s0 h2 k, (∀ e ∈ h2, ∃ pg m, e = .foreign pg m) ∧ (∀ pg, foreign h2 pg = foreign h pg) ∧ (∀ D, Reach g ro ar calm D h2 s0) ∧ b.call g l ar t c chs =
      match s0.call ro ar t c (fun n => chs (n + k)) with
      | .ok (s, r) => .ok (⟨some ro, s⟩, r)
      | .fatal m => .fatal m
      | .segv => .segv
      | .ub w => .ub w
      | .hang => .hang := by
  unfold Boot.call
  simp only [hb, e]
  unfold initThen
  obtain ⟨I, eI, hT⟩ := Tame.initSlowPath g l
  have hI : ∀ {chs : Nat → Choice} {tl0 tl' : Tl} {σ1 : St} {ro : Ro} {tl : Nat → Tl}, (initSlowPath g l).run chs { St.zero with vm := b.s.σ.vm } tl0 = .ok (σ1, tl', ro) →
      (∀ t, (tl t).unsealed = false) → ∃ h, (∀ e ∈ h, ∃ pg m, e = .foreign pg m) ∧ (∀ pg, foreign h pg = (b.s.σ.vm.prot pg != .unmapped)) ∧
        ∀ D, Reach g ro ar calm D h ⟨σ1, tl⟩ := fun h htl => reach_over hf.others h htl
  rw [← eI] at hI ⊢
  rcases Tame.run_bind hT (fun ro => do let r ← c.prog ro (ar t); return (some ro, r)) chs b.s.σ (b.s.tl t) with
    ⟨σ', tl', ro, k, h1, h2, h3⟩ | ⟨m, h1⟩
  · right
    rw [hf.zero] at h1
    obtain ⟨h2', k1, k2, k3⟩ := hI (tl := fun u => if u = t then tl' else b.s.tl u) h1 fun u => by
      split
      · rw [h2]; exact hf.sealed t
      · exact hf.sealed u
    refine ⟨ro, ⟨σ', fun u => if u = t then tl' else b.s.tl u⟩, h2', k, k1, fun pg => (k2 pg).trans (hf.mapped pg).symm, k3, ?_⟩
    · rw [h3, run_map]
      unfold Sys.call
      simp only [if_true]
      cases (c.prog ro (ar t)).run (fun n => chs (n + k)) σ' tl' with
      | ok x =>
        simp only [Res.ok.injEq, Prod.mk.injEq, Boot.mk.injEq, Sys.mk.injEq, true_and, and_true]
        funext u
        by_cases hu : u = t
        · rw [if_pos hu, if_pos hu]
        · rw [if_neg hu, if_neg hu, if_neg hu]
      | _ => rfl
  · left
    exact ⟨m, by rw [h1]⟩

theorem foreign_append {h0 h2 : List Ev} (h : ∀ pg, foreign h2 pg = foreign h0 pg) (h1 : List Ev) (pg : Nat) : foreign (h1 ++ h2) pg = foreign (h1 ++ h0) pg := by
  induction h1 with
  | nil => exact h pg
  | cons e h1 ih =>
    cases e with
    | foreign q m =>
      show (if pg = q then m else foreign (h1 ++ h2) pg) = if pg = q then m else foreign (h1 ++ h0) pg
      rw [ih]
    | _ => exact ih

theorem foreign_call {h : List Ev} {t : Nat} {c : Call} {r : Ret} (pg : Nat) : foreign (.call t c r :: h) pg = foreign h pg := rfl

/-- C48. From the start of the process: before the first allocating call only others have mapped memory and no block is live. After
it the state is one that the other theorems speak of, with the same live blocks and the same memory of others: one that is reached by
initialising the allocator first, letting others map their memory (`h2`), and going on as the process did. -/
theorem c48_from_start {D : List Ev → Boot → Act → Prop} {D' : Ro → Client} (hD : Follows D D') (r : BReach g l ar calm D h b) :
    match b.ro with
    | none => Early h b
    | some ro => ∃ h0 h1 h2, h = h1 ++ h0 ∧ (∀ e ∈ h2, ∃ pg m, e = .foreign pg m) ∧ live h = live (h1 ++ h2) ∧ (∀ pg, foreign h pg = foreign (h1 ++ h2) pg) ∧
        Reach g ro ar calm (D' ro) (h1 ++ h2) b.s := by
  suffices hs : match b.ro with
      | none => Early h b
      | some ro => ∃ h0 h1 h2, h = h1 ++ h0 ∧ (∀ p, live h0 p = none) ∧ (∀ e ∈ h2, ∃ pg m, e = .foreign pg m) ∧ (∀ pg, foreign h2 pg = foreign h0 pg) ∧
          Reach g ro ar calm (D' ro) (h1 ++ h2) b.s by
    cases e : b.ro with
    | none => rw [e] at hs; exact hs
    | some ro =>
      rw [e] at hs
      obtain ⟨h0, h1, h2, rfl, k1, k2, k3, k4⟩ := hs
      exact ⟨h0, h1, h2, rfl, k2, (live_append k1 h1).trans (live_append (live_foreign k2) h1).symm, fun pg => (foreign_append k3 h1 pg).symm, k4⟩
  induction r with
  | start htl => exact ⟨⟨⟨[], fun _ h => absurd rfl h⟩, fun _ _ => rfl⟩, rfl, fun _ => rfl, htl, fun _ => rfl⟩
  | @step h b b' a ev _ ha hd hs ih =>
    cases hb : b.ro with
    | none =>
      rw [hb] at ih
      have hE : Early h b := ih
      obtain ⟨f0, f1, fm, f2, f3⟩ := id hE
      cases a with
      | store x v =>
        simp only [Boot.step, Res.ok.injEq, Prod.mk.injEq] at hs
        obtain ⟨rfl, rfl⟩ := hs
        simp only [hb]
        obtain ⟨g1, g2⟩ := f0.appStore x v
        refine ⟨g1, ?_, fun pg => ?_, f2, f3⟩
        · simp only
          rw [f1]
        · show _ = ((b.s.σ.vm.appStore x v).prot pg != .unmapped)
          rw [g2]; exact fm pg
      | errno u e =>
        simp only [Boot.step, Res.ok.injEq, Prod.mk.injEq] at hs
        obtain ⟨rfl, rfl⟩ := hs
        simp only [hb]
        refine ⟨f0, f1, fm, fun v => ?_, f3⟩
        simp only
        split <;> exact f2 v
      | call u c chs =>
        have hx : ∃ r, b.call g l ar u c chs = .ok (b', r) ∧ ev = .call u c r := by
          simp only [Boot.step] at hs
          revert hs
          cases b.call g l ar u c chs with
          | ok x =>
            intro hs
            simp only [Res.ok.injEq, Prod.mk.injEq] at hs
            exact ⟨x.2, by rw [← hs.1], hs.2.symm⟩
          | _ => exact nofun
        obtain ⟨r, hx, rfl⟩ := hx
        rcases bootProg_cases g l (ar u) c chs b.s.σ (b.s.tl u) with ⟨tl', r', h1, h2, _, h3⟩ | ⟨m, h1⟩ | ⟨hc, h1⟩
        · unfold Boot.call at hx
          simp only [hb, h1, Res.ok.injEq, Prod.mk.injEq] at hx
          obtain ⟨rfl, rfl⟩ := hx
          refine ⟨f0, f1, fm, fun v => ?_, h3 u h f3⟩
          simp only
          split
          · rw [h2]; exact f2 u
          · exact f2 v
        · unfold Boot.call at hx
          simp only [hb, h1] at hx
          cases hx
        · rcases boot_first (calm := calm) hE h1 hb chs with ⟨m, h2⟩ | ⟨ro, s0, hf, k, k1, k2, h2, h3⟩
          · rw [h2] at hx; cases hx
          · rw [h3] at hx
            cases hy : s0.call ro ar u c (fun n => chs (n + k)) with
            | ok y =>
              obtain ⟨s1, r1⟩ := y
              simp only [hy, Res.ok.injEq, Prod.mk.injEq] at hx
              obtain ⟨rfl, rfl⟩ := hx
              refine ⟨h, [.call u c r1], hf, rfl, f3, k1, k2, ?_⟩
              refine Reach.step (h2 (D' ro)) (a := .call u c fun n => chs (n + k)) ⟨ha.1, fun n => ha.2 _⟩
                (hD.first ro h hf b.s s0 u c chs _ f3 (live_foreign k1) hc ?_) ?_
              · have : b = ⟨none, b.s⟩ := by rw [← hb]
                rw [← this]; exact hd
              · simp only [Sys.step, hy]
            | _ => simp only [hy] at hx; cases hx
    | some ro =>
      rw [hb] at ih
      obtain ⟨h0, h1, hf, rfl, h2, k1, k2, h3⟩ := ih
      have hbb : b = ⟨some ro, b.s⟩ := by rw [← hb]
      have hd' : D' ro (h1 ++ hf) b.s a := hD.up ro h0 h1 hf b.s a h2 (live_foreign k1) (by rw [← hbb]; exact hd)
      have key : ∃ s', b' = ⟨some ro, s'⟩ ∧ b.s.step ro ar a = .ok (s', ev) := by
        cases a with
        | store x v =>
          simp only [Boot.step, Res.ok.injEq, Prod.mk.injEq] at hs
          obtain ⟨rfl, rfl⟩ := hs
          exact ⟨_, by rw [hb], rfl⟩
        | errno u e =>
          simp only [Boot.step, Res.ok.injEq, Prod.mk.injEq] at hs
          obtain ⟨rfl, rfl⟩ := hs
          exact ⟨_, by rw [hb], rfl⟩
        | call u c chs =>
          simp only [Boot.step, Boot.call, hb] at hs
          simp only [Sys.step]
          cases hy : b.s.call ro ar u c chs with
          | ok y =>
            simp only [hy, Res.ok.injEq, Prod.mk.injEq] at hs
            exact ⟨y.1, hs.1.symm, by simp only [hs.2]⟩
          | _ => simp only [hy] at hs; cases hs
      obtain ⟨s', rfl, h4⟩ := key
      exact ⟨h0, ev :: h1, hf, rfl, h2, k1, k2, Reach.step h3 ha hd' h4⟩
  | @other h b _ pg pr data hp hz ih =>
    cases hb : b.ro with
    | none =>
      rw [hb] at ih
      have hE : Early h b := ih
      obtain ⟨f0, f1, fm, f2, f3⟩ := id hE
      obtain ⟨L, hL⟩ := f0.fin
      refine ⟨⟨⟨pg :: L, fun q hq => ?_⟩, fun x hx => ?_⟩, ?_, fun q => ?_, f2, f3⟩
      · have hq : (if q = pg then pr else b.s.σ.vm.prot q) ≠ .unmapped := hq
        by_cases e : q = pg
        · rw [e]; exact List.mem_cons_self
        · rw [if_neg e] at hq; exact List.mem_cons_of_mem _ (hL q hq)
      · have hx : (if x / PAGE = pg then pr else b.s.σ.vm.prot (x / PAGE)) = .unmapped := hx
        show (if x / PAGE = pg then data x else b.s.σ.vm.mem x) = 0#8
        by_cases e : x / PAGE = pg
        · rw [if_pos e] at hx ⊢; exact hz hb hx x
        · rw [if_neg e] at hx ⊢; exact f0.zero x hx
      · simp only
        rw [f1]
      · show (if q = pg then _ else foreign h q) = ((if q = pg then pr else b.s.σ.vm.prot q) != .unmapped)
        by_cases e : q = pg
        · rw [if_pos e, if_pos e]
        · rw [if_neg e, if_neg e]; exact fm q
    | some ro =>
      rw [hb] at ih
      obtain ⟨h0, h1, hf, rfl, h2, k1, k2, h3⟩ := ih
      refine ⟨h0, .foreign pg (pr != .unmapped) :: h1, hf, rfl, h2, k1, k2, Reach.other h3 pg pr data (hp.imp_left fun hq => ?_)⟩
      rw [foreign_append k2]
      exact hq

/-- An application that does anything. -/
def anyBoot : List Ev → Boot → Act → Prop := fun _ _ _ => True

/-- An application without memory errors. Before initialisation it has no blocks. -/
def goodBoot : List Ev → Boot → Act → Prop := fun h b a =>
  match b.ro with
  | some ro => goodClient ro h b.s a
  | none =>
      match a with
      | .store _ _ => False
      | .call _ (.free p) _ => p = 0
      | .call _ (.freeSized p _) _ => p = 0
      | .call _ (.realloc p _) _ => p = 0
      | .call _ (.usableSize p) _ => p = 0
      | .call _ (.objectSize p) _ => p = 0
      | _ => True

theorem anyBoot_follows : Follows anyBoot fun _ => anyClient := ⟨fun _ _ _ _ _ _ _ _ _ => trivial, fun _ _ _ _ _ _ _ _ _ _ _ _ _ => trivial⟩

theorem goodBoot_follows : Follows goodBoot goodClient := by
  refine ⟨fun ro h0 h1 h2 s a hl hl2 h => ?_, fun ro h0 h2 s s' t c chs chs' _ _ hc h => ?_⟩
  · have e := (live_append hl h1).trans (live_append hl2 h1).symm
    have h : goodClient ro (h1 ++ h0) s a := h
    revert h
    unfold goodClient
    rw [e]
    exact id
  · cases c with
    | realloc p n => exact Or.inl hc
    | free p => exact hc.elim
    | freeSized p => exact hc.elim
    | usableSize p => exact hc.elim
    | objectSize p => exact hc.elim
    | _ => trivial

/-- C04, C48. Freeing a pointer that is not a live block is detected in every state reachable from the start of the
process, initialised or not. -/
theorem c04_free_from_start (hg : Good g ar) (r : BReach g l ar calm anyBoot h b) (he : ∀ n, Env calm (chs n)) {p : Nat} (hp : p < W64) (h0 : p ≠ 0)
    (hl : live h p = none) : ∃ m, b.call g l ar t (.free p) chs = .fatal m := by
  have k := c48_from_start anyBoot_follows r
  unfold Boot.call
  cases hb : b.ro with
  | none =>
    simp only [Call.bootProg, if_neg h0]
    exact ⟨_, rfl⟩
  | some ro =>
    rw [hb] at k
    obtain ⟨_, h1, h2, _, _, e, _, k⟩ := k
    rw [e] at hl
    obtain ⟨m, h3⟩ := c04_free_detected (t := t) hg k he hp h0 hl
    simp only [h3]
    exact ⟨m, rfl⟩

/-- The same for `free_sized`. -/
theorem c04_free_sized_from_start (hg : Good g ar) (r : BReach g l ar calm anyBoot h b) (he : ∀ n, Env calm (chs n)) {p n : Nat} (hp : p < W64)
    (hn : n < W64) (h0 : p ≠ 0) (hl : live h p = none) : ∃ m, b.call g l ar t (.freeSized p n) chs = .fatal m := by
  have k := c48_from_start anyBoot_follows r
  unfold Boot.call
  cases hb : b.ro with
  | none =>
    simp only [Call.bootProg, if_neg h0]
    exact ⟨_, rfl⟩
  | some ro =>
    rw [hb] at k
    obtain ⟨_, h1, h2, _, _, e, _, k⟩ := k
    rw [e] at hl
    obtain ⟨m, h3⟩ := c04_free_sized_detected (t := t) hg k he hp hn h0 hl
    simp only [h3]
    exact ⟨m, rfl⟩

/-- C48. The outcomes of calls of any application, from the start of the process (compare `c47_outcomes`). -/
theorem c48_outcomes (hg : Good g ar) (r : BReach g l ar calm anyBoot h b) {c : Call} (hok : c.Ok) (he : ∀ n, Env calm (chs n)) :
    match b.call g l ar t c chs with
    | .ok _ => True
    | .fatal _ => True
    | .segv => ∃ p n, c = .realloc p n ∧ p ≠ 0 ∧ live h p = none
    | .ub _ => (∃ p n i, c = .realloc p n ∧ live h p = some i ∧ OverAligned g i) ∨
        ∃ p ro, c = .objectSize p ∧ b.ro = some ro ∧ ro.inSlab p = true ∧ (ro.sizeClassOf p).2 = 0
    | .hang => False := by
  have k := c48_from_start anyBoot_follows r
  cases hb : b.ro with
  | none =>
    rw [hb] at k
    rcases bootProg_cases g l (ar t) c chs b.s.σ (b.s.tl t) with ⟨tl', r', h1, _⟩ | ⟨m, h1⟩ | ⟨hc, h1⟩
    · unfold Boot.call
      simp only [hb, h1]
    · unfold Boot.call
      simp only [hb, h1]
    · rcases boot_first (calm := calm) k h1 hb chs with ⟨m, h2⟩ | ⟨ro, s0, hf, j, k1, _, h2, h3⟩
      · rw [h2]; trivial
      · have h4 := c47_outcomes (t := t) hg (h2 anyClient) hok (chs := fun n => chs (n + j)) fun n => he _
        rw [h3]
        revert h4
        cases s0.call ro ar t c (fun n => chs (n + j)) with
        | ok => exact id
        | fatal => exact id
        | hang => exact id
        | segv =>
          rintro ⟨p, n, rfl, h5, _⟩
          exact (h5 hc).elim
        | ub m =>
          rintro (⟨p, n, i, rfl, h5, _⟩ | ⟨p, rfl, _⟩)
          · rw [live_foreign k1] at h5; cases h5
          · exact hc.elim
  | some ro =>
    rw [hb] at k
    obtain ⟨_, h1, h2, _, _, e, _, k⟩ := k
    have h4 := c47_outcomes (t := t) (chs := chs) hg k hok he
    unfold Boot.call
    simp only [hb]
    revert h4
    rw [e]
    cases b.s.call ro ar t c chs with
    | ok => exact id
    | fatal => exact id
    | hang => exact id
    | segv => exact id
    | ub m =>
      rintro (h5 | ⟨p, h5, h6, h7⟩)
      · exact Or.inl h5
      · exact Or.inr ⟨p, ro, h5, rfl, h6, h7⟩

/-! ### A concrete process -/

theorem run_bind_ok {α β : Type} {P : Prog α} {chs : Nat → Choice} {σ σ' : St} {tl tl' : Tl} {a : α} (h : P.run chs σ tl = .ok (σ', tl', a)) (f : α → Prog β) :
    ∃ k, ∀ chs2, (P >>= f).run (fun n => if n < k then chs n else chs2 (n - k)) σ tl = (f a).run chs2 σ' tl' := by
  induction P generalizing chs σ tl with
  | ret b =>
    simp only [Prog.run, Res.ok.injEq, Prod.mk.injEq] at h
    obtain ⟨rfl, rfl, rfl⟩ := h
    exact ⟨0, fun chs2 => by simp only [Nat.not_lt_zero, if_false, Nat.sub_zero]; rfl⟩
  | act F k ih =>
    simp only [Prog.run] at h
    revert h
    cases e : F (chs 0) σ tl with
    | ok x =>
      obtain ⟨σ1, tl1, b⟩ := x
      intro h
      obtain ⟨j, hj⟩ := ih b h
      refine ⟨j + 1, fun chs2 => ?_⟩
      show (Prog.act F fun b => (k b).bind f).run _ σ tl = _
      simp only [Prog.run, Nat.zero_lt_succ, if_true, e]
      rw [← hj chs2]
      show ((k b).bind f).run _ σ1 tl1 = ((k b).bind f).run _ σ1 tl1
      congr 1
      funext n
      simp only [Nat.add_lt_add_iff_right, Nat.add_sub_add_right]
    | _ => exact nofun

theorem exRun_init (stats sealed : Bool) : ∃ I, I = initSlowPath (exCfg stats sealed) exLayout ∧
    I.run exInitChoices St.zero ⟨0, false⟩ = .ok (exSt, ⟨0, false⟩, exRo stats sealed) :=
  ⟨_, rfl, exInitRun (by cases stats <;> cases sealed <;> decide) (by cases stats <;> cases sealed <;> decide) (by decide) (by decide)⟩

theorem boot_call_init {c : Call} {σ : St} {tl' : Tl} {s : Sys} {r : Ret} {I : Prog Ro} {chs2 : Nat → Choice} (eI : I = initSlowPath g l) (hb : b.ro = none)
    (e : c.bootProg g l (ar t) = initThen g l (ar t) c) (hI : I.run chs b.s.σ (b.s.tl t) = .ok (σ, tl', ro))
    (hm : Sys.call ro ar ⟨σ, fun u => if u = t then tl' else b.s.tl u⟩ t c chs2 = .ok (s, r)) :
    ∃ k, b.call g l ar t c (fun n => if n < k then chs n else chs2 (n - k)) = .ok (⟨some ro, s⟩, r) := by
  obtain ⟨k, hk⟩ := run_bind_ok hI fun ro => do let r ← c.prog ro (ar t); return (some ro, r)
  refine ⟨k, ?_⟩
  unfold Boot.call
  simp only [hb, e]
  unfold initThen
  rw [← eI, hk, run_map]
  unfold Sys.call at hm
  simp only [if_true] at hm
  revert hm
  cases (c.prog ro (ar t)).run chs2 σ tl' with
  | ok x =>
    simp only [Res.ok.injEq, Prod.mk.injEq, and_imp]
    rintro rfl rfl
    refine ⟨?_, rfl⟩
    congr 2
    funext u
    by_cases hu : u = t
    · rw [if_pos hu, if_pos hu]
    · rw [if_neg hu, if_neg hu, if_neg hu]
  | _ => exact nofun

theorem boot_step_call {g : Cfg} {l : Layout} {ar : Nat → Nat} {b b' : Boot} {t : Nat} {c : Call} {chs : Nat → Choice} {r : Ret}
    (h : b.call g l ar t c chs = .ok (b', r)) : b.step g l ar (.call t c chs) = .ok (b', .call t c r) := by
  simp only [Boot.step, h]

/-- Initialisation succeeds also if others have mapped pages at low addresses. -/
theorem exRun_over {g : Cfg} {N : Nat} {σ0 : St} (h0 : ∀ pg, 256 ≤ pg → σ0.vm.prot pg = .unmapped) (e3 : g.realClassRegionSize * nClasses g * g.nArena = N) (e4 : gapOf g 0 = PAGE) (hN : N ≠ 0)
    (hN1 : 0x10000000000 + N ≤ ADDR_END) :
    ∃ I σ, I = initSlowPath g exLayout ∧ I.run exInitChoices σ0 ⟨0, false⟩ = .ok (σ, ⟨0, false⟩, ⟨g, 0x10000000000, fun _ _ => PAGE⟩) := by
  suffices h : ∃ σ, (initSlowPath g exLayout).run exInitChoices σ0 ⟨0, false⟩ = .ok (σ, ⟨0, false⟩, ⟨g, 0x10000000000, fun _ _ => PAGE⟩) by
    obtain ⟨σ, h⟩ := h
    exact ⟨_, σ, rfl, h⟩
  apply Exists.intro
  have e1 : addGuards exLayout.rng PAGE = some 8528 := by decide
  have e2 : addGuards exLayout.state PAGE = some 0x102000 := by decide
  have e5 : (0 % (g.realClassRegionSize / PAGE) + 1) * PAGE = PAGE := by rw [Nat.zero_mod]
  unfold initSlowPath allocatePages
  rw [e1]
  simp only [Prog.bind_assoc]
  rw [run_map_ok (a := 0x100000) rfl rfl rfl (by decide) (by decide) (fun pg hp => h0 pg (by unfold inPages at hp; omega))]
  simp only [Prog.bind_assoc]
  rw [run_protect_ok rfl (by decide) ?h1]
  case h1 =>
    intro pg hp
    show (if inPages _ _ pg then Prot.none else _) ≠ _
    rw [if_pos (by unfold inPages at *; have : exLayout.rng = 336 := rfl; omega)]; decide
  simp only [Bool.false_eq_true, if_false, Prog.pure_bind]
  rw [run_metaGuard, show (exInitChoices (0 + 1 + 1)).guard = 0 from rfl, e5]
  unfold reservePages
  rw [e2]
  simp only [Prog.bind_assoc]
  rw [run_map_ok (a := 0x200000) rfl rfl rfl (by decide) (by decide) ?h2]
  case h2 =>
    intro pg hp
    show (if inPages _ _ pg then Prot.rw else if inPages _ _ pg then Prot.none else _) = _
    have : exLayout.rng = 336 := rfl
    rw [if_neg (by unfold inPages at *; omega), if_neg (by unfold inPages at *; omega)]; exact h0 pg (by unfold inPages at hp; omega)
  simp only [Prog.pure_bind]
  rw [run_protect_ok rfl (by decide) ?h3]
  case h3 =>
    intro pg hp
    show (if inPages _ _ pg then Prot.none else _) ≠ _
    rw [if_pos (by unfold inPages at *; have : exLayout.tabOff = 0x80000 := rfl; omega)]; decide
  simp only [Bool.false_eq_true, if_false]
  rw [run_protect_ok rfl (by decide) ?h4]
  case h4 =>
    intro pg hp
    show (if inPages _ _ pg then Prot.rw else if inPages _ _ pg then Prot.none else _) ≠ _
    have : exLayout.tabOff = 0x80000 := rfl
    rw [if_neg (by unfold inPages at *; omega), if_pos (by unfold inPages at *; omega)]; decide
  simp only [Bool.false_eq_true, if_false]
  rw [e3, run_map_ok (a := 0x10000000000) rfl rfl rfl hN ⟨by decide, by decide, hN1⟩ ?h5]
  case h5 =>
    intro pg hp
    show (if inPages _ _ pg then Prot.rw else if inPages _ _ pg then Prot.rw else if inPages _ _ pg then Prot.none else
      if inPages _ _ pg then Prot.rw else if inPages _ _ pg then Prot.none else _) = _
    have : exLayout.tabOff = 0x80000 := rfl
    have : exLayout.rng = 336 := rfl
    rw [if_neg (by unfold inPages at *; omega), if_neg (by unfold inPages at *; omega), if_neg (by unfold inPages at *; omega), if_neg (by unfold inPages at *; omega), if_neg (by unfold inPages at *; omega)]; exact h0 pg (by unfold inPages at hp; omega)
  simp only
  rw [run_gaps]
  unfold deallocatePages
  simp only [Prog.bind_assoc]
  rw [run_unmap_ok rfl (by decide)]
  simp only [Bool.false_eq_true, if_false, Prog.pure_bind]
  have e6 : (fun a c => gapOf g ((exInitChoices (0 + 1 + 1 + 1 + 1 + 1 + 1 + 1)).u16 (a * nClasses g + c))) = fun _ _ => PAGE :=
    funext fun _ => funext fun _ => e4
  rw [e6]
  rfl

/-- A process in which others map a page and write to it before the allocator is initialised by a call of `posix_memalign`, which fails since 3 is not a power of two. -/
example : ∃ h b, BReach (exCfg true true) exLayout (fun t => t % 4) false anyBoot h b ∧ b.ro = some (exRo true true) ∧ foreign h 1 = true := by
  have hi : ∀ n, Env false (exInitChoices n) := fun n => by
    unfold exInitChoices
    split <;> exact exAt_env _ _
  have r0 : BReach (exCfg true true) exLayout (fun t => t % 4) false anyBoot [] ⟨none, ⟨St.zero, fun _ => ⟨0, false⟩⟩⟩ := .start fun _ => rfl
  have r1 := r0.other 1 .rw (fun _ => 7#8) (Or.inr rfl) nofun
  obtain ⟨I, σ, eI, hI⟩ := exRun_over (g := exCfg true true) (σ0 := { St.zero with vm := St.zero.vm.foreign 1 .rw fun _ => 7#8 }) (fun pg hp => if_neg (by omega))
    rfl (by decide) (by decide) (by decide)
  have hm : Sys.call (exRo true true) (fun t => t % 4) ⟨σ, fun u => if u = 0 then ⟨0, false⟩ else ⟨0, false⟩⟩ 0 (.posixMemalign 3 8) (fun _ => Choice.quiet) =
      .ok (⟨σ, fun u => if u = 0 then ⟨0, false⟩ else if u = 0 then ⟨0, false⟩ else ⟨0, false⟩⟩, .memalign (.error EINVAL)) := rfl
  obtain ⟨k, hk⟩ := boot_call_init (b := ⟨none, ⟨{ St.zero with vm := St.zero.vm.foreign 1 .rw fun _ => 7#8 }, fun _ => ⟨0, false⟩⟩⟩) eI rfl rfl hI hm
  have r2 := r1.step (a := .call 0 (.posixMemalign 3 8) fun n => if n < k then exInitChoices n else Choice.quiet) (e := .call 0 (.posixMemalign 3 8) (.memalign (.error EINVAL)))
    ⟨⟨by decide, by decide⟩, fun n => by simp only; split; exacts [hi n, exAt_env false 0]⟩ trivial (boot_step_call hk)
  exact ⟨_, _, r2, rfl, rfl⟩

/-- A process that asks for the statistics, trims and allocates, which initialises the allocator. -/
example : ∃ h b, BReach (exCfg true true) exLayout (fun t => t % 4) false anyBoot h b ∧ b.ro = some (exRo true true) ∧
    (live h exA).isSome ∧ live h (exA + 16) = none ∧ ∃ h', h = h' ++ [.call 1 .trim (.bool false), .call 0 .mallinfo (.info ⟨0, 0, 0, 0⟩)] := by
  obtain ⟨I, eI, hI⟩ := exRun_init true true
  have hq : ∀ n : Nat, Env false (Choice.quiet) := fun _ => exAt_env false 0
  have hi : ∀ n, Env false (exInitChoices n) := fun n => by
    unfold exInitChoices
    split <;> exact exAt_env _ _
  have r0 : BReach (exCfg true true) exLayout (fun t => t % 4) false anyBoot [] ⟨none, ⟨St.zero, fun _ => ⟨0, false⟩⟩⟩ := .start fun _ => rfl
  have r1 := r0.step (a := .call 0 .mallinfo fun _ => Choice.quiet) ⟨trivial, hq⟩ trivial rfl
  have r2 := r1.step (a := .call 1 .trim fun _ => Choice.quiet) ⟨trivial, hq⟩ trivial rfl
  have e2 : (fun u : Nat => if u = 1 then (⟨0, false⟩ : Tl) else if u = 0 then ⟨0, false⟩ else ⟨0, false⟩) = fun _ => ⟨0, false⟩ := by
    funext u; split <;> first | rfl | (split <;> rfl)
  have r2 : BReach (exCfg true true) exLayout (fun t => t % 4) false anyBoot [.call 1 .trim (.bool false), .call 0 .mallinfo (.info ⟨0, 0, 0, 0⟩)]
    ⟨none, ⟨St.zero, fun _ => ⟨0, false⟩⟩⟩ := e2 ▸ r2
  have hm : ∃ s, Sys.call (exRo true true) (fun t => t % 4) ⟨exSt, fun u => if u = 0 then ⟨0, false⟩ else ⟨0, false⟩⟩ 0 (.malloc 100) (fun _ => Choice.quiet) =
      .ok (s, .ptr exA) := by
    have : (match Sys.call (exRo true true) (fun t => t % 4) ⟨exSt, fun u => if u = 0 then ⟨0, false⟩ else ⟨0, false⟩⟩ 0 (.malloc 100)
        (fun _ => Choice.quiet) with
        | .ok (_, .ptr p) => decide (p = exA) | _ => false) = true := by decide +kernel
    revert this
    cases e : Sys.call (exRo true true) (fun t => t % 4) ⟨exSt, fun u => if u = 0 then ⟨0, false⟩ else ⟨0, false⟩⟩ 0 (.malloc 100) (fun _ => Choice.quiet) with
    | ok x =>
      obtain ⟨s, r⟩ := x
      cases r with
      | ptr p => exact fun h => ⟨s, by rw [of_decide_eq_true h]⟩
      | _ => exact nofun
    | _ => exact nofun
  obtain ⟨s, hm⟩ := hm
  obtain ⟨k, hk⟩ := boot_call_init (b := ⟨none, ⟨St.zero, fun _ => ⟨0, false⟩⟩⟩) eI rfl rfl hI hm
  have r3 := r2.step (a := .call 0 (.malloc 100) fun n => if n < k then exInitChoices n else Choice.quiet) (b' := ⟨some (exRo true true), s⟩)
    (e := .call 0 (.malloc 100) (.ptr exA)) ⟨(by decide : 100 < W64), fun n => by simp only; split; exacts [hi n, hq n]⟩ trivial (by simp only [Boot.step, hk])
  exact ⟨_, _, r3, rfl, by decide, by decide, [_], rfl⟩

end HM
