import Verif.LinkReach
/-
A concrete execution, used to show that the hypotheses of the property theorems are met: the default configuration, one
initialisation, and a few calls. The calls are evaluated by the kernel.
-/
namespace HM

/-- The default configuration, with or without statistics, metadata sealing and the quarantine for small blocks. -/
def exCfg (stats sealed : Bool) (quar : Bool := true) : Cfg :=
  { Cfg.default with stats := stats, sealMetadata := sealed, slabQRandom := quar.toNat, slabQQueue := quar.toNat }

theorem exCfg_valid (stats sealed : Bool) (quar : Bool := true) : (exCfg stats sealed quar).Valid := by
  cases stats <;> cases sealed <;> cases quar <;> constructor <;> decide

/-- Mappings are placed at `a`; random numbers are 0; memory tagging has not been disabled (in builds with tagging). -/
def exAt (a : Nat) : Choice := { Choice.quiet with addr := a, memtag := true }

/-- Choices of the environment during initialisation. -/
def exInitChoices : Nat → Choice
  | 0 => exAt 0x100000
  | 3 => exAt 0x200000
  | 6 => exAt 0x10000000000
  | _ => exAt 0

/-- The slab region is at 2^40; every class region begins one page after its earliest possible start. -/
def exRo (stats sealed : Bool) (quar : Bool := true) : Ro := ⟨exCfg stats sealed quar, 0x10000000000, fun _ _ => PAGE⟩

/-- Memory during initialisation: a temporary mapping, then the allocator state, then the slab region. -/
def exVm0 : Vm := ((St.zero.vm.setProt 0x100000 8528 .none).zeroPages 0x100000 8528).setProt 0x101000 336 .rw
def exVm1 : Vm := (((exVm0.setProt 0x200000 0x102000 .none).zeroPages 0x200000 0x102000).setProt 0x201000 0x80000 .rw).setProt 0x281000 3072 .rw
def exVm2 (N : Nat) : Vm := (exVm1.setProt 0x10000000000 N .none).zeroPages 0x10000000000 N

/-- Memory after initialisation, if the slab region has `N` bytes. -/
def exVm (N : Nat) : Vm := (exVm2 N).setProt 0x100000 8528 .unmapped

/-- The state after initialisation. -/
def exStOf (N : Nat) : St := { St.zero with vm := exVm N }

/-- The state after initialisation, in the default configuration. -/
def exSt : St := exStOf 13469017440256

theorem allPages_true {a n : Nat} {f : Nat → Bool} (h : ∀ pg, inPages a n pg → f pg = true) : Vm.allPages a n f = true := by
  unfold Vm.allPages
  rw [decide_eq_true_eq]
  intro k hk
  exact h _ ⟨Nat.le_add_right _ _, by omega⟩

/-- The sizes of the two structures and the offset are those of one build; any others would do. -/
def exLayout : Layout := ⟨336, 0x100000, 0x80000, by decide⟩

theorem Prog.bind_assoc {α β γ : Type} (P : Prog α) (f : α → Prog β) (k : β → Prog γ) :
    ((P >>= f) >>= k) = (P >>= fun a => f a >>= k) := by
  show (P.bind f).bind k = P.bind fun a => (f a).bind k
  induction P with
  | ret a => rfl
  | act g j ih => exact congrArg (Prog.act g) (funext fun b => ih b)

theorem Prog.pure_bind {α β : Type} (a : α) (f : α → Prog β) : ((pure a : Prog α) >>= f) = f a := rfl

section
variable {α : Type} {chs : Nat → Choice} {σ : St} {tl : Tl} {a n : Nat}

theorem run_one {β : Type} {f : Choice → St → Tl → Res (St × Tl × β)} {k : β → Prog α} {σ' : St} {tl' : Tl} {b : β}
    (h : f (chs 0) σ tl = .ok (σ', tl', b)) : (Prog.one f >>= k).run chs σ tl = (k b).run (fun i => chs (i + 1)) σ' tl' := by
  show (Prog.act (l := none) f fun b => (Prog.ret b).bind k).run chs σ tl = _
  rw [Prog.run, h]
  rfl

theorem run_map_ok {k : Option Nat → Prog α} (h1 : (chs 0).sys 0 = .ok) (h2 : (chs 0).addr = a) (h3 : (chs 0).labelErr 0 = none) (h4 : n ≠ 0)
    (h5 : a % PAGE = 0 ∧ PAGE ≤ a ∧ a + n ≤ ADDR_END) (h6 : ∀ pg, inPages a n pg → σ.vm.prot pg = .unmapped) :
    (sysMap n >>= k).run chs σ tl =
      (k (some a)).run (fun i => chs (i + 1)) { σ with vm := (σ.vm.setProt a n .none).zeroPages a n } tl := by
  have e : memoryMap σ.vm ((chs 0).sys 0) (chs 0).addr n = .ok ((σ.vm.setProt a n .none).zeroPages a n, some a) := by
    rw [h1, h2]
    show (if n = 0 then _ else _ : Res (Vm × Option Nat)) = _
    rw [if_neg h4, if_pos]
    exact ⟨h5.1, h5.2.1, h5.2.2, allPages_true fun pg hp => by rw [h6 pg hp]; rfl⟩
  refine run_one (f := fun ch σ tl => _) ?_
  simp only [e, Choice.label, h3]
  rfl

theorem run_protect_ok {k : Bool → Prog α} (h1 : (chs 0).sys 0 = .ok) (h2 : a % PAGE = 0) (h6 : ∀ pg, inPages a n pg → σ.vm.prot pg ≠ .unmapped) :
    (sysProtect a n >>= k).run chs σ tl = (k false).run (fun i => chs (i + 1)) { σ with vm := σ.vm.setProt a n .rw } tl := by
  have e : memoryProtectRw σ.vm ((chs 0).sys 0) a n = .ok (σ.vm.setProt a n .rw, false) := by
    unfold memoryProtectRw
    rw [h1, if_neg (by simpa using h2)]
    simp only
    rw [if_pos]
    exact allPages_true fun pg hp => by simpa using h6 pg hp
  refine run_one (f := fun ch σ tl => _) ?_
  simp only [e]
  rfl

theorem run_unmap_ok {k : Bool → Prog α} (h1 : (chs 0).sys 0 = .ok) (h2 : a % PAGE = 0 ∧ n ≠ 0) :
    (sysUnmap a n >>= k).run chs σ tl = (k false).run (fun i => chs (i + 1)) { σ with vm := σ.vm.setProt a n .unmapped } tl := by
  have e : memoryUnmap σ.vm ((chs 0).sys 0) a n = .ok (σ.vm.setProt a n .unmapped, false) := by
    unfold memoryUnmap
    rw [h1, if_neg (by rw [not_or]; exact ⟨by simpa using h2.1, h2.2⟩)]
  refine run_one (f := fun ch σ tl => _) ?_
  simp only [e]
  rfl

theorem run_metaGuard {g : Cfg} {k : Nat → Prog α} : (drawMetaGuard g >>= k).run chs σ tl =
    (k (((chs 0).guard % (g.realClassRegionSize / PAGE) + 1) * PAGE)).run (fun i => chs (i + 1)) σ tl := rfl

theorem run_gaps {g : Cfg} {k : (Nat → Nat → Nat) → Prog α} : (drawGaps g >>= k).run chs σ tl =
    (k fun a c => gapOf g ((chs 0).u16 (a * nClasses g + c))).run (fun i => chs (i + 1)) σ tl := rfl

end

theorem exInitRun {g : Cfg} {N : Nat} (e3 : g.realClassRegionSize * nClasses g * g.nArena = N) (e4 : gapOf g 0 = PAGE) (hN : N ≠ 0)
    (hN1 : 0x10000000000 + N ≤ ADDR_END) :
    (initSlowPath g exLayout).run exInitChoices St.zero ⟨0, false⟩ = .ok (exStOf N, ⟨0, false⟩, ⟨g, 0x10000000000, fun _ _ => PAGE⟩) := by
  have e1 : addGuards exLayout.rng PAGE = some 8528 := by decide
  have e2 : addGuards exLayout.state PAGE = some 0x102000 := by decide
  have e5 : (0 % (g.realClassRegionSize / PAGE) + 1) * PAGE = PAGE := by rw [Nat.zero_mod]
  unfold initSlowPath allocatePages
  rw [e1]
  simp only [Prog.bind_assoc]
  rw [run_map_ok (a := 0x100000) rfl rfl rfl (by decide) (by decide) (fun _ _ => rfl)]
  simp only [Prog.bind_assoc]
  rw [run_protect_ok rfl (by decide) ?h1]
  case h1 =>
    intro pg hp
    show (if inPages _ _ pg then Prot.none else _) ≠ _
    rw [if_pos (by unfold inPages at *; have : exLayout.rng = 336 := rfl; omega)]; decide
  simp only [Bool.false_eq_true, if_false, Prog.pure_bind]
  rw [run_metaGuard, show (exInitChoices (0 + 1 + 1)).guard = 0 from rfl, e5]
  unfold reservePages
  rw [e2]
  simp only [Prog.bind_assoc]
  rw [run_map_ok (a := 0x200000) rfl rfl rfl (by decide) (by decide) ?h2]
  case h2 =>
    intro pg hp
    show (if inPages _ _ pg then Prot.rw else if inPages _ _ pg then Prot.none else _) = _
    have : exLayout.rng = 336 := rfl
    rw [if_neg (by unfold inPages at *; omega), if_neg (by unfold inPages at *; omega)]; rfl
  simp only [Prog.pure_bind]
  rw [run_protect_ok rfl (by decide) ?h3]
  case h3 =>
    intro pg hp
    show (if inPages _ _ pg then Prot.none else _) ≠ _
    rw [if_pos (by unfold inPages at *; have : exLayout.tabOff = 0x80000 := rfl; omega)]; decide
  simp only [Bool.false_eq_true, if_false]
  rw [run_protect_ok rfl (by decide) ?h4]
  case h4 =>
    intro pg hp
    show (if inPages _ _ pg then Prot.rw else if inPages _ _ pg then Prot.none else _) ≠ _
    have : exLayout.tabOff = 0x80000 := rfl
    rw [if_neg (by unfold inPages at *; omega), if_pos (by unfold inPages at *; omega)]; decide
  simp only [Bool.false_eq_true, if_false]
  rw [e3, run_map_ok (a := 0x10000000000) rfl rfl rfl hN ⟨by decide, by decide, hN1⟩ ?h5]
  case h5 =>
    intro pg hp
    show (if inPages _ _ pg then Prot.rw else if inPages _ _ pg then Prot.rw else if inPages _ _ pg then Prot.none else
      if inPages _ _ pg then Prot.rw else if inPages _ _ pg then Prot.none else _) = _
    have : exLayout.tabOff = 0x80000 := rfl
    have : exLayout.rng = 336 := rfl
    rw [if_neg (by unfold inPages at *; omega), if_neg (by unfold inPages at *; omega), if_neg (by unfold inPages at *; omega), if_neg (by unfold inPages at *; omega), if_neg (by unfold inPages at *; omega)]; rfl
  simp only
  rw [run_gaps]
  unfold deallocatePages
  simp only [Prog.bind_assoc]
  rw [run_unmap_ok rfl (by decide)]
  simp only [Bool.false_eq_true, if_false, Prog.pure_bind]
  have e6 : (fun a c => gapOf g ((exInitChoices (0 + 1 + 1 + 1 + 1 + 1 + 1 + 1)).u16 (a * nClasses g + c))) = fun _ _ => PAGE :=
    funext fun _ => funext fun _ => e4
  rw [e6]
  rfl

theorem exInitOf {g : Cfg} {N : Nat} (e3 : g.realClassRegionSize * nClasses g * g.nArena = N) (e4 : gapOf g 0 = PAGE) (hN : N ≠ 0)
    (hN1 : 0x10000000000 + N ≤ ADDR_END) : Initialised g ⟨g, 0x10000000000, fun _ _ => PAGE⟩ (exStOf N) :=
  ⟨exLayout, exInitChoices, ⟨0, false⟩, ⟨0, false⟩, exInitRun e3 e4 hN hN1⟩

theorem exInit (stats sealed : Bool) (quar : Bool := true) : Initialised (exCfg stats sealed quar) (exRo stats sealed quar) exSt :=
  exInitOf (by cases stats <;> cases sealed <;> cases quar <;> decide) (by cases stats <;> cases sealed <;> cases quar <;> decide) (by decide) (by decide)

/-! ### Running a list of actions -/

/-- Actions with simple choices of the environment: new mappings are placed at `a` and nothing fails, or every system
call of action `n` of the call fails with ENOMEM. -/
inductive ExAct where
  | call (t : Nat) (c : Call) (a : Nat)
  | fail (t : Nat) (c : Call) (a n : Nat)
  | store (x : Nat) (v : BitVec 8)
  | errno (t : Nat) (e : Errno)

def ExAct.act : ExAct → Act
  | .call t c a => .call t c fun _ => exAt a
  | .fail t c a n => .call t c fun i => if i = n then { exAt a with sys := fun _ => .enomem } else exAt a
  | .store x v => .store x v
  | .errno t e => .errno t e

/-- 64-bit arguments. -/
def Call.okB : Call → Bool
  | .malloc n | .valloc n | .pvalloc n => decide (n < W64)
  | .calloc n k | .realloc n k | .posixMemalign n k | .alignedAlloc n k | .freeSized n k => decide (n < W64) && decide (k < W64)
  | .free p | .usableSize p | .objectSize p | .objectSizeFast p => decide (p < W64)
  | .trim | .mallinfo => true

theorem Call.okB_ok {c : Call} (h : c.okB = true) : c.Ok := by
  cases c <;> simp_all [Call.okB, Call.Ok]

def ExAct.okB (calm : Bool) : ExAct → Bool
  | .call _ c _ => c.okB
  | .fail _ c _ _ => c.okB && !calm
  | _ => true

theorem exAt_env (calm : Bool) (a : Nat) : Env calm (exAt a) :=
  ⟨by simp [exAt, Choice.quiet], fun _ => ⟨by simp [exAt, Choice.quiet], fun _ => by simp [exAt, Choice.quiet]⟩⟩

theorem ExAct.okB_ok {calm : Bool} {a : ExAct} (h : a.okB calm = true) : a.act.Ok calm := by
  cases a with
  | call t c a => exact ⟨Call.okB_ok h, fun _ => exAt_env calm a⟩
  | fail t c a n =>
    simp only [ExAct.okB, Bool.and_eq_true, Bool.not_eq_true'] at h
    refine ⟨Call.okB_ok h.1, fun i => ?_⟩
    simp only
    by_cases k : i = n
    · rw [if_pos k]
      exact ⟨by simp [exAt, Choice.quiet], fun e => absurd e (by rw [h.2]; decide)⟩
    · rw [if_neg k]; exact exAt_env calm a
  | store => trivial
  | errno => trivial

/-- The actions one after the other; none if one of them does not return or is not allowed by `ok`. -/
def runActs (ro : Ro) (ar : Nat → Nat) (calm : Bool) (ok : List Ev → Sys → Act → Bool) : List ExAct → List Ev → Sys → Option (List Ev × Sys)
  | [], h, s => some (h, s)
  | a :: as, h, s =>
      if a.okB calm && ok h s a.act then
        match s.step ro ar a.act with
        | .ok (s', e) => runActs ro ar calm ok as (e :: h) s'
        | _ => none
      else none

theorem runActs_reach {g : Cfg} {ro : Ro} {ar : Nat → Nat} {calm : Bool} {D : Client} {ok : List Ev → Sys → Act → Bool}
    (hD : ∀ h s a, ok h s a = true → D h s a) {as : List ExAct} {h h' : List Ev} {s s' : Sys} (r : Reach g ro ar calm D h s)
    (e : runActs ro ar calm ok as h s = some (h', s')) : Reach g ro ar calm D h' s' := by
  induction as generalizing h s with
  | nil => cases e; exact r
  | cons a as ih =>
    unfold runActs at e
    by_cases k : (a.okB calm && ok h s a.act) = true
    · rw [if_pos k] at e
      rw [Bool.and_eq_true] at k
      revert e
      cases hs : s.step ro ar a.act with
      | ok x => 
        obtain ⟨s1, e1⟩ := x
        exact fun e => ih (r.step (ExAct.okB_ok k.1) (hD _ _ _ k.2) hs) e
      | fatal m => intro e; cases e
      | segv => intro e; cases e
      | ub m => intro e; cases e
      | hang => intro e; cases e
    · rw [if_neg k] at e; cases e

/-- The size that `malloc_usable_size` reports. -/
def usableB (ro : Ro) (σ : St) (p : Nat) : Option Nat :=
  match (hUsableSize ro p).run (fun _ => Choice.quiet) σ ⟨0, false⟩ with
  | .ok (_, _, u) => some u
  | _ => none

/-- The program changes no shared state. -/
def Prog.Pure {α : Type} : Prog α → Prop
  | .ret _ => True
  | .act f k => (∀ ch σ tl σ' tl' b, f ch σ tl = .ok (σ', tl', b) → σ' = σ) ∧ ∀ b, (k b).Pure

theorem Prog.Pure.run {α : Type} {P : Prog α} (h : P.Pure) {chs : Nat → Choice} {σ σ' : St} {tl tl' : Tl} {a : α}
    (e : P.run chs σ tl = .ok (σ', tl', a)) : σ' = σ := by
  induction P generalizing chs σ tl with
  | ret b => cases e; rfl
  | act f k ih =>
    rw [Prog.run] at e
    revert e
    cases hf : f (chs 0) σ tl with
    | ok x =>
      obtain ⟨σ1, tl1, b⟩ := x
      intro e
      rw [ih b (h.2 b) e, h.1 _ _ _ _ _ _ hf]
    | fatal m => intro e; cases e
    | segv => intro e; cases e
    | ub m => intro e; cases e
    | hang => intro e; cases e

theorem Prog.Pure.bind {α β : Type} {P : Prog α} {f : α → Prog β} (h : P.Pure) (hf : ∀ a, (f a).Pure) : (P >>= f).Pure := by
  show (P.bind f).Pure
  induction P with
  | ret a => exact hf a
  | act g k ih => exact ⟨h.1, fun b => ih b (h.2 b)⟩

theorem pure_critical {ro : Ro} {s : Sect} {β : Type} {f : Choice → St → Errno → Res (St × Errno × β)}
    (h : ∀ ch σ e σ' e' b, f ch σ e = .ok (σ', e', b) → σ' = σ) : (critical ro s f).Pure := by
  refine ⟨fun ch σ tl σ' tl' b e => ?_, fun _ => trivial⟩
  simp only at e
  by_cases k : (ro.g.sealMetadata && !tl.unsealed) = true
  · rw [if_pos k] at e; cases e
  · rw [if_neg k] at e
    revert e
    cases hf : f ch σ tl.errno with
    | ok x => obtain ⟨σ1, e1, b⟩ := x; intro e; cases e; exact h _ _ _ _ _ _ hf
    | fatal m => intro e; cases e
    | segv => intro e; cases e
    | ub m => intro e; cases e
    | hang => intro e; cases e

theorem hUsableSize_pure (ro : Ro) (p : Nat) : (hUsableSize ro p).Pure := by
  have hu : unsealMeta.Pure := ⟨fun _ _ _ _ _ _ e => by cases e; rfl, fun _ => trivial⟩
  have hs : sealMeta.Pure := ⟨fun _ _ _ _ _ _ e => by cases e; rfl, fun _ => trivial⟩
  unfold hUsableSize
  by_cases k : p = 0
  · rw [if_pos k]; trivial
  · rw [if_neg k]
    by_cases k : ro.inSlab p = true
    · rw [if_pos k]
      refine hu.bind fun _ => Prog.Pure.bind ?_ fun _ => hs.bind fun _ => trivial
      refine pure_critical fun ch σ e σ' e' b hf => ?_
      simp only at hf
      by_cases k : nClasses ro.g ≤ (ro.sizeClassOf p).2 ∨ ro.g.nArena ≤ (ro.sizeClassOf p).1
      · rw [if_pos k] at hf; cases hf
      · rw [if_neg k] at hf
        revert hf
        cases memoryCorruptionCheckSmall ro.g (tagging ro.g ch) (ro.regionStart (ro.sizeClassOf p).1 (ro.sizeClassOf p).2) (ro.sizeClassOf p).2 p
            (σ.sc (ro.sizeClassOf p).1 (ro.sizeClassOf p).2) σ.vm with
        | ok x => intro e; cases e; rfl
        | fatal m => intro e; cases e
        | segv => intro e; cases e
        | ub m => intro e; cases e
        | hang => intro e; cases e
    · rw [if_neg k]
      refine hu.bind fun _ => Prog.Pure.bind ?_ fun _ => hs.bind fun _ => trivial
      refine pure_critical fun ch σ e σ' e' b hf => ?_
      revert hf
      cases lookupRegion σ.rt p with
      | ok x => 
        cases x with
        | none => intro e; cases e
        | some x => intro e; cases e; rfl
      | fatal m => intro e; cases e
      | segv => intro e; cases e
      | ub m => intro e; cases e
      | hang => intro e; cases e

theorem usableB_usable {ro : Ro} {σ : St} {p u : Nat} (h : usableB ro σ p = some u) : Usable ro σ p u := by
  unfold usableB at h
  revert h
  cases e : (hUsableSize ro p).run (fun _ => Choice.quiet) σ ⟨0, false⟩ with
  | ok x =>
    obtain ⟨σ', tl', v⟩ := x
    intro h
    simp only [Option.some.injEq] at h
    exact ⟨tl', by rw [e, (hUsableSize_pure ro p).run e, h]⟩
  | fatal m => intro e; cases e
  | segv => intro e; cases e
  | ub m => intro e; cases e
  | hang => intro e; cases e

/-- The blocks returned during a history. -/
def blocks : List Ev → List Nat
  | [] => []
  | .call _ _ r :: h => r.block.toList ++ blocks h
  | _ :: h => blocks h

/-- `x` is a usable byte of a live block. -/
def inBlock (ro : Ro) (h : List Ev) (s : Sys) (x : Nat) : Bool :=
  (blocks h).any fun p => (live h p).isSome && (usableB ro s.σ p).any fun u => decide (p ≤ x) && decide (x < p + u)

theorem inBlock_spec {ro : Ro} {h : List Ev} {s : Sys} {x : Nat} (e : inBlock ro h s x = true) :
    ∃ p u, (live h p).isSome ∧ Usable ro s.σ p u ∧ p ≤ x ∧ x < p + u := by
  unfold inBlock at e
  rw [List.any_eq_true] at e
  obtain ⟨p, _, e⟩ := e
  rw [Bool.and_eq_true, Option.any_eq_true] at e
  obtain ⟨e1, u, e2, e3⟩ := e
  rw [Bool.and_eq_true, decide_eq_true_eq, decide_eq_true_eq] at e3
  exact ⟨p, u, e1, usableB_usable e2, e3.1, e3.2⟩

/-- The condition of `goodClient`, computed. -/
def goodB (ro : Ro) (h : List Ev) (s : Sys) : Act → Bool
  | .store x _ => inBlock ro h s x
  | .call _ (.free p) _ => p == 0 || (live h p).isSome
  | .call _ (.freeSized p n) _ => p == 0 || decide (live h p = some ⟨n, none⟩)
  | .call _ (.realloc p _) _ => p == 0 || (live h p).any fun i => i.align.isNone || decide (ro.g.maxSlab < i.size)
  | .call _ (.usableSize p) _ => p == 0 || (live h p).isSome
  | .call _ (.objectSize p) _ => p == 0 || inBlock ro h s p
  | _ => true

theorem goodB_good {ro : Ro} {h : List Ev} {s : Sys} {a : Act} (e : goodB ro h s a = true) : goodClient ro h s a := by
  cases a with
  | store x v => exact inBlock_spec e
  | errno => trivial
  | call t c chs =>
    cases c with
    | free p => simpa [goodB, goodClient] using e
    | freeSized p n => simpa [goodB, goodClient] using e
    | usableSize p => simpa [goodB, goodClient] using e
    | objectSize p =>
      simp only [goodB, Bool.or_eq_true, beq_iff_eq] at e
      exact e.imp id inBlock_spec
    | realloc p n =>
      simp only [goodB, Bool.or_eq_true, beq_iff_eq, Option.any_eq_true] at e
      refine e.imp id fun ⟨i, h1, h2⟩ => ⟨i, h1, fun ⟨⟨al, h3, _⟩, h4⟩ => ?_⟩
      simp only [h3, Option.isNone_some, decide_eq_true_eq] at h2
      rcases h2 with h2 | h2
      · exact absurd h2 (by simp)
      · omega
    | _ => trivial

/-- The state after the actions `as`, run from the initial state of the example. -/
def exRun (stats sealed calm : Bool) (ok : List Ev → Sys → Act → Bool) (as : List ExAct) (quar : Bool := true) : Option (List Ev × Sys) :=
  runActs (exRo stats sealed quar) (fun t => t % 4) calm ok as [] ⟨exSt, fun _ => ⟨0, false⟩⟩

/-- An execution of an arbitrary application: what `P` computes from its last state is true. -/
theorem ex_any {stats sealed calm : Bool} (as : List ExAct) (P : List Ev → Sys → Bool)
    (e : ((exRun stats sealed calm (fun _ _ _ => true) as).any fun x => P x.1 x.2) = true) :
    ∃ h s, Reach (exCfg stats sealed) (exRo stats sealed) (fun t => t % 4) calm anyClient h s ∧ P h s = true := by
  rw [Option.any_eq_true] at e
  obtain ⟨⟨h, s⟩, h1, h2⟩ := e
  exact ⟨h, s, runActs_reach (fun _ _ _ _ => trivial) (.init (exInit stats sealed) fun _ => rfl) h1, h2⟩

/-- An execution of an arbitrary application, without quarantine. -/
theorem ex_any0 {stats sealed calm : Bool} (as : List ExAct) (P : List Ev → Sys → Bool)
    (e : ((exRun stats sealed calm (fun _ _ _ => true) as false).any fun x => P x.1 x.2) = true) :
    ∃ h s, Reach (exCfg stats sealed false) (exRo stats sealed false) (fun t => t % 4) calm anyClient h s ∧ P h s = true := by
  rw [Option.any_eq_true] at e
  obtain ⟨⟨h, s⟩, h1, h2⟩ := e
  exact ⟨h, s, runActs_reach (fun _ _ _ _ => trivial) (.init (exInit stats sealed false) fun _ => rfl) h1, h2⟩

/-- An execution of a well-behaved application: what `P` computes from its last state is true. -/
theorem ex_good {stats sealed calm : Bool} (as : List ExAct) (P : List Ev → Sys → Bool)
    (e : ((exRun stats sealed calm (goodB (exRo stats sealed)) as).any fun x => P x.1 x.2) = true) :
    ∃ h s, Reach (exCfg stats sealed) (exRo stats sealed) (fun t => t % 4) calm (goodClient (exRo stats sealed)) h s ∧ P h s = true := by
  rw [Option.any_eq_true] at e
  obtain ⟨⟨h, s⟩, h1, h2⟩ := e
  exact ⟨h, s, runActs_reach (fun _ _ _ e => goodB_good e) (.init (exInit stats sealed) fun _ => rfl) h1, h2⟩

/-- A build with memory tagging, which is enabled in the beginning (`tag`) or not; no quarantine for small blocks. -/
def mtCfg (tag : Bool) : Cfg := { exCfg false false false with mte := true, memtag := tag }

def mtRo (tag : Bool) : Ro := ⟨mtCfg tag, 0x10000000000, fun _ _ => PAGE⟩

theorem mtInit (tag : Bool) : Initialised (mtCfg tag) (mtRo tag) exSt :=
  exInitOf (by cases tag <;> decide) (by cases tag <;> decide) (by decide) (by decide)

theorem mtGood (tag : Bool) : Good (mtCfg tag) (fun t => t % 4) :=
  ⟨by cases tag <;> constructor <;> decide, by cases tag <;> decide, fun t => by
    have : (mtCfg tag).nArena = 4 := by cases tag <;> rfl
    rw [this]; exact Nat.mod_lt _ (by decide)⟩

/-- An execution of an arbitrary application, with memory tagging. -/
theorem mt_any {tag calm : Bool} (as : List ExAct) (P : List Ev → Sys → Bool)
    (e : ((runActs (mtRo tag) (fun t => t % 4) calm (fun _ _ _ => true) as [] ⟨exSt, fun _ => ⟨0, false⟩⟩).any fun x => P x.1 x.2) = true) :
    ∃ h s, Reach (mtCfg tag) (mtRo tag) (fun t => t % 4) calm anyClient h s ∧ P h s = true := by
  rw [Option.any_eq_true] at e
  obtain ⟨⟨h, s⟩, h1, h2⟩ := e
  exact ⟨h, s, runActs_reach (fun _ _ _ _ => trivial) (.init (mtInit tag) fun _ => rfl) h1, h2⟩

/-- The conditions on configuration and arenas hold for the example. -/
theorem exGood (stats sealed : Bool) (quar : Bool := true) : Good (exCfg stats sealed quar) (fun t => t % 4) :=
  ⟨exCfg_valid stats sealed quar, by cases stats <;> cases sealed <;> cases quar <;> decide, fun t => by
    have : (exCfg stats sealed quar).nArena = 4 := by cases stats <;> cases sealed <;> cases quar <;> rfl
    rw [this]; exact Nat.mod_lt _ (by decide)⟩

/-- Addresses that occur in the examples: the first two blocks of class 112 (for `malloc(100)`) in arena 0, the first block
of class 16 in arena 0, the first zero byte block, and a large block mapped at 0x100000000000. -/
abbrev exA : Nat := 1580547969024
abbrev exB : Nat := 1580547969136
abbrev exBig : Nat := 17592186048512
abbrev exMapAt : Nat := 0x100000000000

/-- How a call ends. -/
def Res.isOk {α : Type} : Res α → Bool
  | .ok _ => true
  | _ => false
def Res.isFatal {α : Type} : Res α → Bool
  | .fatal _ => true
  | _ => false
def Res.isUb {α : Type} : Res α → Bool
  | .ub _ => true
  | _ => false
def Res.val {α : Type} : Res α → Option α
  | .ok a => some a
  | _ => none

/-- The result of a call as a number: a pointer, a size. -/
def Ret.toNat : Ret → Nat
  | .ptr p => p
  | .num n => n
  | .memalign (.ok p) => p
  | .bool b => b.toNat
  | _ => 0

/-- Thread `t` makes call `c` in the state after an example. -/
def exCall (stats sealed : Bool) (s : Sys) (t : Nat) (c : Call) : Res (Sys × Ret) :=
  s.call (exRo stats sealed) (fun t => t % 4) t c fun _ => exAt exMapAt

/-- An execution of an arbitrary application, with what a further call does. -/
theorem ex_call {stats sealed calm : Bool} (as : List ExAct) (t : Nat) (c : Call) (P : List Ev → Sys → Res (Sys × Ret) → Bool)
    (e : ((exRun stats sealed calm (fun _ _ _ => true) as).any fun x => P x.1 x.2 (exCall stats sealed x.2 t c)) = true) :
    ∃ h s, Reach (exCfg stats sealed) (exRo stats sealed) (fun t => t % 4) calm anyClient h s ∧
      ∃ chs : Nat → Choice, (∀ n, Env calm (chs n)) ∧ P h s (s.call (exRo stats sealed) (fun t => t % 4) t c chs) = true := by
  obtain ⟨h, s, h1, h2⟩ := ex_any as (fun h s => P h s (exCall stats sealed s t c)) e
  exact ⟨h, s, h1, _, fun _ => exAt_env calm _, h2⟩

/-- An execution of an application without memory errors, with what a further call does. -/
theorem ex_good_call {stats sealed calm : Bool} (as : List ExAct) (t : Nat) (c : Call) (P : List Ev → Sys → Res (Sys × Ret) → Bool)
    (e : ((exRun stats sealed calm (goodB (exRo stats sealed)) as).any fun x => P x.1 x.2 (exCall stats sealed x.2 t c)) = true) :
    ∃ h s, Reach (exCfg stats sealed) (exRo stats sealed) (fun t => t % 4) calm (goodClient (exRo stats sealed)) h s ∧
      ∃ chs : Nat → Choice, (∀ n, Env calm (chs n)) ∧ P h s (s.call (exRo stats sealed) (fun t => t % 4) t c chs) = true := by
  obtain ⟨h, s, h1, h2⟩ := ex_good as (fun h s => P h s (exCall stats sealed s t c)) e
  exact ⟨h, s, h1, _, fun _ => exAt_env calm _, h2⟩

end HM
