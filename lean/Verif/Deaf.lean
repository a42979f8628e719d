import Verif.Conc
/-
The kernel's answer to one system call, the release of the tail of the mapping for an over-aligned block (pages.c:75), is
looked at only by calls that ask for an alignment above the page size.
-/
namespace HM

/-- The same choices of the environment, except that the release of the tail of an over-aligned mapping succeeds. -/
def Choice.untrail (ch : Choice) : Choice := { ch with trailUnmap := .ok }

/-- A section that does not record a region that the statistics leave out. -/
def Tracked (l : Option Sect) : Prop := ∀ q, l ≠ some (.regions q true)

/-- No action of the program looks at the answer to the release of the tail of an over-aligned mapping or records a region that
the statistics leave out. -/
def Prog.Deaf {α : Type} : Prog α → Prop
  | .ret _ => True
  | .act (l := l) f k => ((∀ ch σ tl, f ch.untrail σ tl = f ch σ tl) ∧ Tracked l) ∧ ∀ b, (k b).Deaf

/-! ### Parts of critical sections -/

section
variable (g : Cfg) (base cls : Nat) (ch : Choice)

theorem allocateSmall_untrail (n : Nat) (c : SC) (vm : Vm) (e : Errno) : allocateSmall g base cls n ch.untrail c vm e = allocateSmall g base cls n ch c vm e := rfl

theorem deallocateSmall_untrail (p : Nat) (x : Option Nat) (c : SC) (vm : Vm) (e : Errno) :
    deallocateSmall g base cls p x ch.untrail c vm e = deallocateSmall g base cls p x ch c vm e := rfl

theorem trimLoop_untrail : ∀ (n k : Nat) (i : Option Nat) (b : Bool) (c : SC) (vm : Vm) (e : Errno),
    trimLoop g base cls ch.untrail n k i b c vm e = trimLoop g base cls ch n k i b c vm e
  | 0, _, _, _, _, _, _ => rfl
  | _ + 1, _, none, _, _, _, _ => rfl
  | n + 1, k, some i, b, c, vm, e => by
    unfold trimLoop
    simp only [trimLoop_untrail n]
    rfl

theorem purgeEntries_untrail (arr : Nat → Nat) (m k0 : Nat) : ∀ (n i : Nat) (vm : Vm) (e : Errno),
    purgeEntries arr m ch.untrail k0 n i vm e = purgeEntries arr m ch k0 n i vm e
  | 0, _, _, _ => rfl
  | n + 1, i, vm, e => by
    unfold purgeEntries
    simp only [purgeEntries_untrail arr m k0 n]
    rfl

theorem trimClass_untrail (c : SC) (vm : Vm) (e : Errno) : trimClass g base cls ch.untrail c vm e = trimClass g base cls ch c vm e := by
  unfold trimClass trimPurge
  simp only [trimLoop_untrail, purgeEntries_untrail]

end

namespace Prog.Deaf
variable {ro : Ro}

theorem bind {α β : Type} {P : Prog α} {k : α → Prog β} (h1 : P.Deaf) (h2 : ∀ a, (k a).Deaf) : (P >>= k).Deaf := by
  induction P with
  | ret a => exact h2 a
  | act f k' ih => exact ⟨h1.1, fun b => ih b (h1.2 b)⟩

theorem pure {α : Type} (a : α) : (Pure.pure a : Prog α).Deaf := trivial

theorem act {β : Type} {l : Option Sect} {f : Choice → St → Tl → Res (St × Tl × β)} (h : ∀ ch σ tl, f ch.untrail σ tl = f ch σ tl)
    (hl : Tracked l := by intro _ e; cases e) : (Prog.act (l := l) f Prog.ret).Deaf := ⟨⟨h, hl⟩, fun _ => trivial⟩

theorem critical {β : Type} {s : Sect} {f : Choice → St → Errno → Res (St × Errno × β)} (h : ∀ ch σ e, f ch.untrail σ e = f ch σ e)
    (hl : Tracked (some s) := by intro _ e; cases e) : (HM.critical ro s f).Deaf := act (fun ch σ tl => by simp only [h]) hl

/-- One step through a program. -/
syntax "deaf1" : tactic
/-- Walk through a program. -/
macro "deaf" : tactic => `(tactic| repeat (first | with_reducible exact Deaf.pure _ | with_reducible assumption | deaf1 |
  (with_reducible refine Deaf.bind ?_ fun _ => ?_) | split | simp only))

theorem setErrno (e : Errno) : (HM.setErrno e).Deaf := act fun _ _ _ => rfl
theorem getErrno : HM.getErrno.Deaf := act fun _ _ _ => rfl
theorem unsealMeta : HM.unsealMeta.Deaf := act fun _ _ _ => rfl
theorem sealMeta : HM.sealMeta.Deaf := act fun _ _ _ => rfl
theorem die {α : Type} (m : String) : (HM.die m : Prog α).Deaf := ⟨⟨fun _ _ _ => rfl, fun _ e => nomatch e⟩, fun b => nomatch b⟩
theorem sysMap (k : Nat) : (HM.sysMap k).Deaf := act fun _ _ _ => rfl
theorem sysMapFixed (p n : Nat) : (HM.sysMapFixed p n).Deaf := act fun _ _ _ => rfl
theorem sysUnmap (p n : Nat) : (HM.sysUnmap p n).Deaf := act fun _ _ _ => rfl
theorem sysProtect (p n : Nat) : (HM.sysProtect p n).Deaf := act fun _ _ _ => rfl
theorem sysRemap (p n q m : Nat) : (HM.sysRemap p n q m).Deaf := act fun _ _ _ => rfl
theorem sysPurge (p n : Nat) : (HM.sysPurge p n).Deaf := act fun _ _ _ => rfl
theorem memCopy (a b k : Nat) : (HM.memCopy a b k).Deaf := act fun _ _ _ => rfl
theorem memZero (a k : Nat) : (HM.memZero a k).Deaf := act fun _ _ _ => rfl
theorem insertRegion (p s gd : Nat) : (HM.insertRegion ro p s gd true).Deaf := critical fun _ _ _ => rfl
theorem drawGuard (s : Nat) : (HM.drawGuard ro s).Deaf := critical fun _ _ _ => rfl
theorem findRegion (p : Nat) (m : String) : (HM.findRegion ro p m).Deaf := critical fun _ _ _ => rfl
theorem removeRegion (p : Nat) (e : Option Nat) (m : String) : (HM.removeRegion ro p e m).Deaf := critical fun _ _ _ => rfl
theorem resizeRegion (p a b : Nat) : (HM.resizeRegion ro p a b).Deaf := critical fun _ _ _ => rfl
theorem quarantineRegion (x : Nat × Nat) : (HM.quarantineRegion ro x).Deaf := critical fun _ _ _ => rfl
theorem smallAlloc (a b : Nat) : (HM.smallAlloc ro a b).Deaf := critical fun _ _ _ => by simp only [allocateSmall_untrail]
theorem smallFree (p : Nat) (e : Option Nat) : (HM.smallFree ro p e).Deaf := critical fun _ _ _ => by simp only [deallocateSmall_untrail]
theorem smallTrim (a b : Nat) : (HM.smallTrim ro a b).Deaf := critical fun _ _ _ => by simp only [trimClass_untrail]
theorem smallCheck (a : Nat) : (HM.smallCheck ro a).Deaf := critical fun _ _ _ => rfl
theorem smallOffset (a : Nat) : (HM.smallOffset ro a).Deaf := critical fun _ _ _ => rfl
theorem largeObjectSize (a : Nat) : (HM.largeObjectSize ro a).Deaf := critical fun _ _ _ => rfl
theorem readLargeStats : (HM.readLargeStats ro).Deaf := critical fun _ _ _ => rfl
theorem readClassStats (a c : Nat) : (HM.readClassStats ro a c).Deaf := critical fun _ _ _ => rfl
macro_rules | `(tactic| deaf1) => `(tactic| with_reducible first
  | exact setErrno _ | exact getErrno | exact unsealMeta | exact sealMeta | exact die _ | exact sysMap _ | exact sysMapFixed _ _
  | exact sysUnmap _ _ | exact sysProtect _ _ | exact sysRemap _ _ _ _ | exact sysPurge _ _ | exact memCopy _ _ _ | exact memZero _ _
  | exact insertRegion _ _ _ | exact drawGuard _ | exact findRegion _ _ | exact removeRegion _ _ _ | exact resizeRegion _ _ _
  | exact quarantineRegion _ | exact smallAlloc _ _ | exact smallFree _ _ | exact smallTrim _ _ | exact smallCheck _ | exact smallOffset _
  | exact largeObjectSize _ | exact readLargeStats | exact readClassStats _ _)

/-! ### Functions -/

theorem deallocatePages (p k gd : Nat) : (HM.deallocatePages p k gd).Deaf := by unfold HM.deallocatePages; deaf
theorem allocatePages (k gd : Nat) : (HM.allocatePages k gd).Deaf := by unfold HM.allocatePages; deaf
macro_rules | `(tactic| deaf1) => `(tactic| with_reducible first | exact deallocatePages _ _ _ | exact allocatePages _ _)
theorem quarantineDeallocatePages (a b c : Nat) : (HM.quarantineDeallocatePages ro a b c).Deaf := by unfold HM.quarantineDeallocatePages; deaf
theorem finishLarge (a b : Nat) (d : Option Nat) : (HM.finishLarge ro a b true d).Deaf := by unfold HM.finishLarge; deaf
macro_rules | `(tactic| deaf1) => `(tactic| with_reducible first | exact quarantineDeallocatePages _ _ _ | exact finishLarge _ _ _)
theorem allocateLarge (a : Nat) : (HM.allocateLarge ro a).Deaf := by unfold HM.allocateLarge; deaf
theorem deallocateLarge (p : Nat) (e : Option Nat) : (HM.deallocateLarge ro p e).Deaf := by unfold HM.deallocateLarge; deaf
macro_rules | `(tactic| deaf1) => `(tactic| with_reducible first | exact allocateLarge _ | exact deallocateLarge _ _)
theorem allocate (a b : Nat) : (HM.allocate ro a b).Deaf := by unfold HM.allocate; deaf
macro_rules | `(tactic| deaf1) => `(tactic| with_reducible exact allocate _ _)
theorem allocateAligned (a al n m : Nat) (h : al ≤ PAGE) : (HM.allocateAligned ro a al n m).Deaf := by
  unfold HM.allocateAligned
  rw [if_pos h]
  deaf
theorem alloc (a b : Nat) : (HM.alloc ro a b).Deaf := by unfold HM.alloc; deaf
theorem reallocCopy (a p s k : Nat) : (HM.reallocCopy ro a p s k).Deaf := by unfold HM.reallocCopy; deaf
theorem reallocShrink (p a b c : Nat) : (HM.reallocShrink ro p a b c).Deaf := by unfold HM.reallocShrink; deaf
theorem reallocMove (p a b c : Nat) : (HM.reallocMove ro p a b c).Deaf := by unfold HM.reallocMove; deaf
macro_rules | `(tactic| deaf1) => `(tactic| with_reducible first | exact alloc _ _ | exact reallocCopy _ _ _ _ | exact reallocShrink _ _ _ _ | exact reallocMove _ _ _ _)
theorem reallocLarge (a p k : Nat) : (HM.reallocLarge ro a p k).Deaf := by unfold HM.reallocLarge; deaf
macro_rules | `(tactic| deaf1) => `(tactic| with_reducible exact reallocLarge _ _ _)
theorem reallocSized (a p k : Nat) : (HM.reallocSized ro a p k).Deaf := by unfold HM.reallocSized; deaf
macro_rules | `(tactic| deaf1) => `(tactic| with_reducible exact reallocSized _ _ _)
theorem allocAligned (a al n m : Nat) (h : al ≤ PAGE) : (HM.allocAligned ro a al n m).Deaf := by
  have := fun k => allocateAligned (ro := ro) a al k m h
  unfold HM.allocAligned
  exact bind unsealMeta fun _ => bind (this _) fun _ => bind sealMeta fun _ => pure _
theorem allocAlignedSimple (a al n : Nat) (h : al ≤ PAGE) : (HM.allocAlignedSimple ro a al n).Deaf := by
  unfold HM.allocAlignedSimple
  refine bind (allocAligned _ _ _ _ h) fun _ => ?_
  deaf

theorem trimClasses (a : Nat) : ∀ (k c : Nat) (t : Bool), (HM.trimClasses ro a k c t).Deaf
  | 0, _, _ => pure _
  | k + 1, c, t => bind (smallTrim _ _) fun _ => trimClasses a k _ _
theorem trimArenas : ∀ (k a : Nat) (t : Bool), (HM.trimArenas ro k a t).Deaf
  | 0, _, _ => pure _
  | k + 1, a, t => bind (trimClasses _ _ _ _) fun _ => trimArenas k _ _
theorem sumClasses (a : Nat) : ∀ (k c : Nat) (t : Nat × Nat), (HM.sumClasses ro a k c t).Deaf
  | 0, _, _ => pure _
  | k + 1, c, t => bind (readClassStats _ _) fun _ => sumClasses a k _ _
theorem sumArenas : ∀ (k a : Nat) (t : Nat × Nat), (HM.sumArenas ro k a t).Deaf
  | 0, _, _ => pure _
  | k + 1, a, t => bind (sumClasses _ _ _ _) fun _ => sumArenas k _ _
macro_rules | `(tactic| deaf1) => `(tactic| with_reducible first | exact trimArenas _ _ _ | exact sumArenas _ _ _)

/-- Only calls that ask for an alignment above the page size look at the answer. -/
theorem call (a : Nat) : ∀ {c : Call}, c.Plain → (c.prog ro a).Deaf
  | .malloc n, _ => by unfold Call.prog HM.hMalloc; deaf
  | .calloc n k, _ => by unfold Call.prog HM.hCalloc; deaf
  | .realloc p n, _ => by unfold Call.prog HM.hRealloc; deaf
  | .posixMemalign al n, h => bind (allocAligned _ _ _ _ h) fun _ => pure _
  | .alignedAlloc al n, h => bind (allocAlignedSimple _ _ _ h) fun _ => pure _
  | .valloc n, _ => bind (allocAlignedSimple _ _ _ (Nat.le_refl _)) fun _ => pure _
  | .pvalloc n, _ => by
    refine bind ?_ fun _ => pure _
    unfold HM.hPvalloc
    split
    · deaf
    · exact allocAlignedSimple _ _ _ (Nat.le_refl _)
  | .free p, _ => by unfold Call.prog HM.hFree; deaf
  | .freeSized p n, _ => by unfold Call.prog HM.hFreeSized; deaf
  | .usableSize p, _ => by unfold Call.prog HM.hUsableSize; deaf
  | .objectSize p, _ => by unfold Call.prog HM.hObjectSize; deaf
  | .objectSizeFast p, _ => by unfold Call.prog HM.hObjectSizeFast; deaf
  | .trim, _ => by unfold Call.prog HM.hTrim; deaf
  | .mallinfo, _ => by unfold Call.prog HM.hMallinfo; deaf

end Prog.Deaf

/-! ### Reachable states -/

/-- The choices of `CEnv` that do not let the release of the tail of an over-aligned mapping fail with ENOMEM. -/
def SEnv (calm : Bool) (ch : Choice) : Prop := Env calm ch ∧ ch.trailUnmap ≠ .enomem

/-- For an action that does not look at the answer to the release of the tail of an over-aligned mapping, there are choices
with the same effect for which it does not fail. -/
theorem CEnv.settle {calm : Bool} {c : Call} {ch : Choice} (he : CEnv calm c ch) {β : Type} {f : Choice → St → Tl → Res (St × Tl × β)}
    (hd : c.Plain → ∀ ch σ tl, f ch.untrail σ tl = f ch σ tl) :
    ∃ ch', SEnv calm ch' ∧ (∀ σ tl, f ch' σ tl = f ch σ tl) ∧ ch'.sys = ch.sys ∧ ch'.growRemap = ch.growRemap ∧ ch'.memtag = ch.memtag ∧
      (ch'.trailUnmap = .other → ch.trailUnmap = .other) := by
  by_cases e : ch.trailUnmap = .enomem
  · exact ⟨ch.untrail, ⟨⟨he.1.1, fun hc => ⟨SysRes.noConfusion, (he.1.2 hc).2⟩⟩, SysRes.noConfusion⟩, hd (he.2 e) ch, rfl, rfl, rfl, SysRes.noConfusion⟩
  · exact ⟨ch, ⟨he.1, e⟩, fun _ _ => rfl, rfl, rfl, rfl, id⟩

/-- Calls in progress that do not ask for an alignment above the page size do not look at the answer. -/
theorem CReach.deaf {g : Cfg} {ro : Ro} {ar : Nat → Nat} {calm : Bool} {h : List CEv} {s : CSys} (r : CReach g ro ar calm h s) :
    ∀ t c P, s.run t = some (c, P) → c.Plain → P.Deaf := by
  induction r with
  | init hi htl => intro t c P e; cases e
  | invoke r u d b hi hok hl ih =>
    intro t c P e hp
    by_cases ht : t = u
    · simp only [upd, ht, if_pos] at e; cases e; exact .call _ hp
    · simp only [upd, if_neg ht] at e; exact ih t c P e hp
  | step r u hc he hf ih =>
    intro t c P e hp
    by_cases ht : t = u
    · simp only [upd, ht, if_pos] at e; cases e; exact (ih _ _ _ hc hp).2 _
    · simp only [upd, if_neg ht] at e; exact ih t c P e hp
  | ret r u hc ih =>
    intro t c P e hp
    by_cases ht : t = u
    · simp only [upd, ht, if_pos] at e; cases e
    · simp only [upd, if_neg ht] at e; exact ih t c P e hp
  | store r x v hp hu h1 h2 ih => exact ih
  | errno r t e hi ih => exact ih
  | fork r u hi ih => intro t c P e; cases e
  | other r pg pr data hp ih => exact ih

end HM
