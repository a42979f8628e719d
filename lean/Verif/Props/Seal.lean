import Verif.Props.Fail
/-
C42. With metadata sealing, the metadata is only touched while the thread has access to it, and every call ends with the
access withdrawn.
-/
namespace HM

variable {g : Cfg} {ro : Ro} {ar : Nat → Nat} {calm : Bool} {D : Client} {h : List Ev} {s : Sys}

/-- The action neither reads nor writes the metadata: what it does is determined by the memory of the process and the
thread's own state alone, and it changes nothing else. -/
def NoMeta {β : Type} (f : Choice → St → Tl → Res (St × Tl × β)) : Prop :=
  ∃ F : Choice → Vm → Tl → Res (Vm × Tl × β), ∀ ch σ tl, f ch σ tl =
    match F ch σ.vm tl with
    | .ok (vm, tl, b) => .ok ({ σ with vm := vm }, tl, b)
    | .fatal m => .fatal m
    | .segv => .segv
    | .ub w => .ub w
    | .hang => .hang

/-- A program that starts with the metadata accessible or not (`u`) touches it only in actions that happen while it is
accessible, whatever other threads do between its actions, and it ends with the accessibility `v`. -/
def Prog.Guarded {α : Type} : Prog α → Bool → Bool → Prop
  | .ret _, u, v => u = v
  | .act f k, u, v => (u = false → NoMeta f) ∧
      ∀ ch σ tl σ' tl' b, tl.unsealed = u → f ch σ tl = .ok (σ', tl', b) → (k b).Guarded tl'.unsealed v

namespace Prog.Guarded

theorem pure {α : Type} {u : Bool} (a : α) : (Pure.pure a : Prog α).Guarded u u := rfl

theorem bind {α β : Type} {P : Prog α} {k : α → Prog β} {u v w : Bool} (h1 : P.Guarded u v) (h2 : ∀ a, (k a).Guarded v w) :
    (P >>= k).Guarded u w := by
  show (P.bind k).Guarded u w
  induction P generalizing u with
  | ret a => cases h1; exact h2 a
  | act f k' ih => exact ⟨h1.1, fun ch σ tl σ' tl' b e1 e2 => ih b (h1.2 ch σ tl σ' tl' b e1 e2)⟩

theorem one {β : Type} {f : Choice → St → Tl → Res (St × Tl × β)} {u v : Bool} (h1 : u = false → NoMeta f)
    (h2 : ∀ ch σ tl σ' tl' b, tl.unsealed = u → f ch σ tl = .ok (σ', tl', b) → tl'.unsealed = v) : (Prog.one f).Guarded u v := ⟨h1, h2⟩

theorem setErrno {u : Bool} (e : Errno) : (HM.setErrno e).Guarded u u :=
  one (fun _ => ⟨fun _ vm tl => .ok (vm, { tl with errno := e }, ()), fun _ _ _ => rfl⟩) fun _ _ _ _ _ _ h e => by cases e; exact h
theorem getErrno {u : Bool} : HM.getErrno.Guarded u u :=
  one (fun _ => ⟨fun _ vm tl => .ok (vm, tl, tl.errno), fun _ _ _ => rfl⟩) fun _ _ _ _ _ _ h e => by cases e; exact h
theorem unsealMeta {u : Bool} : HM.unsealMeta.Guarded u true :=
  one (fun _ => ⟨fun _ vm tl => .ok (vm, { tl with unsealed := true }, ()), fun _ _ _ => rfl⟩) fun _ _ _ _ _ _ _ e => by cases e; rfl
theorem sealMeta {u : Bool} : HM.sealMeta.Guarded u false :=
  one (fun _ => ⟨fun _ vm tl => .ok (vm, { tl with unsealed := false }, ()), fun _ _ _ => rfl⟩) fun _ _ _ _ _ _ _ e => by cases e; rfl
theorem die {α : Type} {u v : Bool} (m : String) : (HM.die m : Prog α).Guarded u v :=
  ⟨fun _ => ⟨fun _ _ _ => .fatal m, fun _ _ _ => rfl⟩, fun _ _ _ _ _ _ _ e => by cases e⟩

theorem critical {β : Type} (ro : Ro) {s : Sect} (f : Choice → St → Errno → Res (St × Errno × β)) : (HM.critical ro s f).Guarded true true := by
  refine one (fun h => by cases h) fun ch σ tl σ' tl' b h e => ?_
  split at e
  · cases e
  · split at e <;> cases e
    exact h

theorem sysMap {u : Bool} (n : Nat) : (HM.sysMap n).Guarded u u := by
  refine one (fun _ => ⟨fun ch vm tl =>
    match memoryMap vm (ch.sys 0) ch.addr n with
    | .ok (vm, some a) => .ok (vm, { tl with errno := ch.label 0 tl.errno }, some a)
    | .ok (vm, none) => .ok (vm, { tl with errno := ENOMEM }, none)
    | .fatal m => .fatal m
    | .segv => .segv
    | .ub w => .ub w
    | .hang => .hang, fun ch σ tl => ?_⟩) fun ch σ tl σ' tl' b h e => ?_
  · simp only
    cases memoryMap σ.vm (ch.sys 0) ch.addr n with
    | ok x => obtain ⟨vm, a⟩ := x; cases a <;> rfl
    | _ => rfl
  · split at e <;> first | (cases e; exact h) | cases e

theorem sysCall {u : Bool} (l : Bool) (f : Choice → Vm → Res (Vm × Bool)) : (HM.sysCall l f).Guarded u u := by
  refine one (fun _ => ⟨fun ch vm tl =>
    match f ch vm with
    | .ok (vm, failed) => .ok (vm, { tl with errno := if failed then ENOMEM else if l then ch.label 0 tl.errno else tl.errno }, failed)
    | .fatal m => .fatal m
    | .segv => .segv
    | .ub w => .ub w
    | .hang => .hang, fun ch σ tl => ?_⟩) fun ch σ tl σ' tl' b h e => ?_
  · simp only
    cases f ch σ.vm <;> rfl
  · split at e <;> first | (cases e; exact h) | cases e

theorem memCopy {u : Bool} (a b n : Nat) : (HM.memCopy a b n).Guarded u u := by
  refine one (fun _ => ⟨fun _ vm tl => if vm.accessible a n && vm.accessible b n then .ok (vm.copy a b n, tl, ()) else .segv, fun ch σ tl => ?_⟩)
    fun ch σ tl σ' tl' b h e => ?_
  · simp only; split <;> rfl
  · split at e <;> first | (cases e; exact h) | cases e
theorem memZero {u : Bool} (a n : Nat) : (HM.memZero a n).Guarded u u := by
  refine one (fun _ => ⟨fun _ vm tl => if vm.accessible a n then .ok (vm.fill a n 0#8, tl, ()) else .segv, fun ch σ tl => ?_⟩)
    fun ch σ tl σ' tl' b h e => ?_
  · simp only; split <;> rfl
  · split at e <;> first | (cases e; exact h) | cases e

/-- One step through a program. -/
syntax "seal1" : tactic
/-- Walk through a program. -/
macro "seals" : tactic => `(tactic| repeat (first | with_reducible exact Guarded.pure _ | with_reducible assumption | seal1 | (with_reducible refine Guarded.bind (v := true) ?_ fun _ => ?_) | split | simp only))
macro_rules | `(tactic| seal1) => `(tactic| with_reducible exact setErrno _)
macro_rules | `(tactic| seal1) => `(tactic| with_reducible exact getErrno)
macro_rules | `(tactic| seal1) => `(tactic| with_reducible exact unsealMeta)
macro_rules | `(tactic| seal1) => `(tactic| with_reducible exact sealMeta)
macro_rules | `(tactic| seal1) => `(tactic| with_reducible refine Guarded.bind unsealMeta fun _ => ?_)
macro_rules | `(tactic| seal1) => `(tactic| with_reducible refine Guarded.bind sealMeta fun _ => ?_)
macro_rules | `(tactic| seal1) => `(tactic| with_reducible refine Guarded.bind (setErrno _) fun _ => ?_)
macro_rules | `(tactic| seal1) => `(tactic| with_reducible refine Guarded.bind getErrno fun _ => ?_)
macro_rules | `(tactic| seal1) => `(tactic| with_reducible exact die _)
macro_rules | `(tactic| seal1) => `(tactic| with_reducible exact sysMap _)
macro_rules | `(tactic| seal1) => `(tactic| with_reducible exact sysCall _ _)
macro_rules | `(tactic| seal1) => `(tactic| with_reducible exact memCopy _ _ _)
macro_rules | `(tactic| seal1) => `(tactic| with_reducible exact memZero _ _)
macro_rules | `(tactic| seal1) => `(tactic| with_reducible exact critical _ _)

theorem deallocatePages (p n gd : Nat) : (HM.deallocatePages p n gd).Guarded true true := by
  unfold HM.deallocatePages sysPurge sysUnmap
  seals
macro_rules | `(tactic| seal1) => `(tactic| with_reducible exact deallocatePages _ _ _)
theorem allocatePages (n gd : Nat) : (HM.allocatePages n gd).Guarded true true := by
  unfold HM.allocatePages sysProtect sysUnmap
  seals
macro_rules | `(tactic| seal1) => `(tactic| with_reducible exact allocatePages _ _)
theorem trimMapping (a b c d e f k : Nat) : (HM.trimMapping a b c d e f k).Guarded true true := by
  unfold HM.trimMapping sysUnmap sysUnmapTrail
  seals
macro_rules | `(tactic| seal1) => `(tactic| with_reducible exact trimMapping _ _ _ _ _ _ _)
theorem mapAligned (a b c d e : Nat) : (HM.mapAligned a b c d e).Guarded true true := by
  unfold HM.mapAligned sysProtect sysUnmap
  seals
macro_rules | `(tactic| seal1) => `(tactic| with_reducible exact mapAligned _ _ _ _ _)
theorem allocatePagesAligned (a b c : Nat) : (HM.allocatePagesAligned a b c).Guarded true true := by
  unfold HM.allocatePagesAligned
  simp only
  generalize W64 = w
  seals
macro_rules | `(tactic| seal1) => `(tactic| with_reducible exact allocatePagesAligned _ _ _)
theorem quarantineDeallocatePages (ro : Ro) (a b c : Nat) : (HM.quarantineDeallocatePages ro a b c).Guarded true true := by
  unfold HM.quarantineDeallocatePages sysMapFixed sysPurge sysUnmap quarantineRegion
  seals
macro_rules | `(tactic| seal1) => `(tactic| with_reducible exact quarantineDeallocatePages _ _ _ _)
theorem finishLarge (ro : Ro) (a b : Nat) (c : Bool) (p : Option Nat) : (HM.finishLarge ro a b c p).Guarded true true := by
  unfold HM.finishLarge insertRegion
  seals
macro_rules | `(tactic| seal1) => `(tactic| with_reducible exact finishLarge _ _ _ _ _)
theorem allocateLarge (ro : Ro) (n : Nat) : (HM.allocateLarge ro n).Guarded true true := by
  unfold HM.allocateLarge drawGuard
  seals
macro_rules | `(tactic| seal1) => `(tactic| with_reducible exact allocateLarge _ _)
theorem smallAlloc (ro : Ro) (a n : Nat) : (HM.smallAlloc ro a n).Guarded true true := critical _ _
theorem smallFree (ro : Ro) (p : Nat) (x : Option Nat) : (HM.smallFree ro p x).Guarded true true := critical _ _
theorem removeRegion (ro : Ro) (p : Nat) (x : Option Nat) (m : String) : (HM.removeRegion ro p x m).Guarded true true := critical _ _
theorem findRegion (ro : Ro) (p : Nat) (m : String) : (HM.findRegion ro p m).Guarded true true := critical _ _
macro_rules | `(tactic| seal1) => `(tactic| with_reducible exact smallAlloc _ _ _)
macro_rules | `(tactic| seal1) => `(tactic| with_reducible exact smallFree _ _ _)
macro_rules | `(tactic| seal1) => `(tactic| with_reducible exact removeRegion _ _ _ _)
macro_rules | `(tactic| seal1) => `(tactic| with_reducible exact findRegion _ _ _)
theorem allocate (ro : Ro) (a n : Nat) : (HM.allocate ro a n).Guarded true true := by
  unfold HM.allocate
  seals
macro_rules | `(tactic| seal1) => `(tactic| with_reducible exact allocate _ _ _)
theorem deallocateLarge {u : Bool} (ro : Ro) (p : Nat) (x : Option Nat) : (HM.deallocateLarge ro p x).Guarded u true := by
  unfold HM.deallocateLarge
  refine bind unsealMeta fun _ => ?_
  seals
macro_rules | `(tactic| seal1) => `(tactic| with_reducible exact deallocateLarge _ _ _)
theorem allocateOverAligned (ro : Ro) (a n : Nat) : (HM.allocateOverAligned ro a n).Guarded true true := by
  unfold HM.allocateOverAligned drawGuard
  seals
macro_rules | `(tactic| seal1) => `(tactic| with_reducible exact allocateOverAligned _ _ _)
theorem allocateAligned (ro : Ro) (a b c d : Nat) : (HM.allocateAligned ro a b c d).Guarded true true := by
  unfold HM.allocateAligned
  seals
macro_rules | `(tactic| seal1) => `(tactic| with_reducible exact allocateAligned _ _ _ _ _)
theorem allocAligned {u : Bool} (ro : Ro) (a b c d : Nat) : (HM.allocAligned ro a b c d).Guarded u false := by
  unfold HM.allocAligned
  seals
macro_rules | `(tactic| seal1) => `(tactic| with_reducible exact allocAligned _ _ _ _ _)
theorem allocAlignedSimple {u : Bool} (ro : Ro) (a b c : Nat) : (HM.allocAlignedSimple ro a b c).Guarded u false := by
  unfold HM.allocAlignedSimple
  refine bind (allocAligned _ _ _ _ _) fun _ => ?_
  seals
macro_rules | `(tactic| seal1) => `(tactic| with_reducible exact allocAlignedSimple _ _ _ _)
theorem alloc {u : Bool} (ro : Ro) (a n : Nat) : (HM.alloc ro a n).Guarded u false := by
  unfold HM.alloc
  seals
macro_rules | `(tactic| seal1) => `(tactic| with_reducible exact alloc _ _ _)
theorem hCalloc (ro : Ro) (a n k : Nat) : (HM.hCalloc ro a n k).Guarded false false := by
  unfold HM.hCalloc
  split
  · seals
  · refine bind (alloc _ _ _) fun o => ?_
    cases o with
    | none => exact pure _
    | some p =>
      simp only
      split
      · exact bind (memZero _ _) fun _ => pure _
      · exact pure _
theorem reallocCopy (ro : Ro) (a b c d : Nat) : (HM.reallocCopy ro a b c d).Guarded true false := by
  unfold HM.reallocCopy
  seals
macro_rules | `(tactic| seal1) => `(tactic| with_reducible exact reallocCopy _ _ _ _ _)
theorem reallocShrink (ro : Ro) (a b c d : Nat) : (HM.reallocShrink ro a b c d).Guarded true false := by
  unfold HM.reallocShrink sysMapFixed resizeRegion
  seals
macro_rules | `(tactic| seal1) => `(tactic| with_reducible exact reallocShrink _ _ _ _ _)
theorem reallocMove (ro : Ro) (a b c d : Nat) : (HM.reallocMove ro a b c d).Guarded true false := by
  unfold HM.reallocMove sysRemap sysUnmap
  seals
macro_rules | `(tactic| seal1) => `(tactic| with_reducible exact reallocMove _ _ _ _ _)
theorem reallocLarge (ro : Ro) (a b c : Nat) : (HM.reallocLarge ro a b c).Guarded false false := by
  unfold HM.reallocLarge
  seals
macro_rules | `(tactic| seal1) => `(tactic| with_reducible exact reallocLarge _ _ _ _)
theorem reallocSized (ro : Ro) (a b c : Nat) : (HM.reallocSized ro a b c).Guarded false false := by
  unfold HM.reallocSized
  seals
macro_rules | `(tactic| seal1) => `(tactic| with_reducible exact reallocSized _ _ _ _)
theorem hRealloc (ro : Ro) (a b c : Nat) : (HM.hRealloc ro a b c).Guarded false false := by
  unfold HM.hRealloc
  seals
theorem hPvalloc (ro : Ro) (a n : Nat) : (HM.hPvalloc ro a n).Guarded false false := by
  unfold HM.hPvalloc
  seals
theorem hFree (ro : Ro) (p : Nat) : (HM.hFree ro p).Guarded false false := by
  unfold HM.hFree
  seals
theorem hFreeSized (ro : Ro) (p n : Nat) : (HM.hFreeSized ro p n).Guarded false false := by
  unfold HM.hFreeSized
  seals
theorem hUsableSize (ro : Ro) (p : Nat) : (HM.hUsableSize ro p).Guarded false false := by
  unfold HM.hUsableSize smallCheck
  seals
theorem hObjectSize (ro : Ro) (p : Nat) : (HM.hObjectSize ro p).Guarded false false := by
  unfold HM.hObjectSize smallOffset largeObjectSize
  seals
theorem hObjectSizeFast (ro : Ro) (p : Nat) : (HM.hObjectSizeFast ro p).Guarded false false := by
  unfold HM.hObjectSizeFast
  seals
theorem trimClasses (ro : Ro) (arena n cls : Nat) (t : Bool) : (HM.trimClasses ro arena n cls t).Guarded true true := by
  induction n generalizing cls t with
  | zero => exact pure _
  | succ n ih => exact bind (critical _ _) fun _ => ih _ _
theorem trimArenas (ro : Ro) (n arena : Nat) (t : Bool) : (HM.trimArenas ro n arena t).Guarded true true := by
  induction n generalizing arena t with
  | zero => exact pure _
  | succ n ih => exact bind (trimClasses _ _ _ _ _) fun _ => ih _ _
theorem hTrim (ro : Ro) : (HM.hTrim ro).Guarded false false :=
  bind unsealMeta fun _ => bind (trimArenas _ _ _ _) fun _ => bind sealMeta fun _ => pure _
theorem sumClasses (ro : Ro) (arena n cls : Nat) (t : Nat × Nat) : (HM.sumClasses ro arena n cls t).Guarded true true := by
  induction n generalizing cls t with
  | zero => exact pure _
  | succ n ih => exact bind (critical _ _) fun _ => ih _ _
theorem sumArenas (ro : Ro) (n arena : Nat) (t : Nat × Nat) : (HM.sumArenas ro n arena t).Guarded true true := by
  induction n generalizing arena t with
  | zero => exact pure _
  | succ n ih => exact bind (sumClasses _ _ _ _ _) fun _ => ih _ _
theorem hMallinfo (ro : Ro) : (HM.hMallinfo ro).Guarded false false := by
  unfold HM.hMallinfo
  split
  · exact bind unsealMeta fun _ => bind (critical _ _) fun _ => bind (sumArenas _ _ _ _) fun _ => bind sealMeta fun _ => pure _
  · exact pure _

end Prog.Guarded

/-- C42. Every API function, started without access to the metadata, touches it only after it has got access, and returns
without access. This holds on every path through the function, for every outcome of the system calls, every random
draw and whatever other threads do in between. -/
theorem c42_guarded (ro : Ro) (arena : Nat) (c : Call) : (c.prog ro arena).Guarded false false := by
  cases c <;> unfold Call.prog <;> simp only <;> refine Prog.Guarded.bind (v := false) ?_ fun _ => Prog.Guarded.pure _
  · exact Prog.Guarded.alloc _ _ _
  · exact Prog.Guarded.hCalloc _ _ _ _
  · exact Prog.Guarded.hRealloc _ _ _ _
  · exact Prog.Guarded.allocAligned _ _ _ _ _
  · exact Prog.Guarded.allocAlignedSimple _ _ _ _
  · exact Prog.Guarded.allocAlignedSimple _ _ _ _
  · exact Prog.Guarded.hPvalloc _ _ _
  · exact Prog.Guarded.hFree _ _
  · exact Prog.Guarded.hFreeSized _ _ _
  · exact Prog.Guarded.hUsableSize _ _
  · exact Prog.Guarded.hObjectSize _ _
  · exact Prog.Guarded.hObjectSizeFast _ _
  · exact Prog.Guarded.hTrim _
  · exact Prog.Guarded.hMallinfo _

/-- C42. Between two calls no thread has access to the metadata. -/
theorem c42_sealed (hg : Good g ar) (r : Reach g ro ar calm D h s) (t : Nat) : (s.tl t).unsealed = false := by
  obtain ⟨w, f, _⟩ := r.fits hg
  exact f.tl t

/-- The definition does reject programs: reading one counter of the metadata without access is not allowed. -/
example (ro : Ro) (v : Bool) : ¬ (readLargeStats ro).Guarded false v := by
  intro h
  obtain ⟨F, hF⟩ := h.1 rfl
  have h1 := hF Choice.quiet (exStOf 0) ⟨0, true⟩
  have h2 := hF Choice.quiet { exStOf 0 with largeAllocated := (exStOf 0).largeAllocated + 1 } ⟨0, true⟩
  simp only [Bool.not_true, Bool.and_false, Bool.false_eq_true, if_false] at h1 h2
  cases hf : F Choice.quiet (exStOf 0).vm ⟨0, true⟩ with
  | ok x =>
    rw [hf] at h1 h2
    simp only [Res.ok.injEq, Prod.mk.injEq] at h1 h2
    omega
  | _ => rw [hf] at h1; cases h1

/-- Calls that work on metadata succeed in a configuration with sealing. -/
example : ∃ h s, Reach (exCfg false true) (exRo false true) (fun t => t % 4) true anyClient h s ∧ (exCfg false true).sealMetadata = true ∧
    live h exA = some ⟨100, none⟩ ∧ ∃ chs : Nat → Choice, (∀ n, Env true (chs n)) ∧
      ∃ s', s.call (exRo false true) (fun t => t % 4) 0 (.free exA) chs = .ok (s', .unit) := by
  obtain ⟨h, s, h1, h2⟩ := ex_any (stats := false) (sealed := true) (calm := true) [.call 0 (.malloc 100) 0]
    (fun h s => decide (live h exA = some ⟨100, none⟩) && callIs .unit 0 (s.call (exRo false true) (fun t => t % 4) 0 (.free exA) fun _ => Choice.quiet)) (by decide +kernel)
  rw [Bool.and_eq_true, decide_eq_true_eq] at h2
  obtain ⟨s', h3, _⟩ := callIs_spec h2.2
  exact ⟨h, s, h1, rfl, h2.1, fun _ => Choice.quiet, fun _ => Env.quiet true, s', h3⟩

end HM
