import Verif.Budget
/-
How many actions a call performs at most.
-/
namespace HM

variable {ro : Ro}

/-- The program performs at most `n` actions. -/
def Prog.Short {α : Type} : Prog α → Nat → Prop
  | .ret _, _ => True
  | .act _ k, n => 0 < n ∧ ∀ b, (k b).Short (n - 1)

namespace Prog.Short

theorem mono {α : Type} {P : Prog α} {m n : Nat} (h : P.Short m) (hmn : m ≤ n) : P.Short n := by
  induction P generalizing m n with
  | ret a => trivial
  | act f k ih => exact ⟨Nat.lt_of_lt_of_le h.1 hmn, fun b => ih b (h.2 b) (Nat.sub_le_sub_right hmn _)⟩

theorem bind {α β : Type} {P : Prog α} {k : α → Prog β} {m n : Nat} (h1 : P.Short m) (h2 : ∀ a, (k a).Short n) : (P >>= k).Short (m + n) := by
  show (P.bind k).Short (m + n)
  induction P generalizing m with
  | ret a => exact (h2 a).mono (by omega)
  | act f k' ih => exact ⟨by have := h1.1; omega, fun b => (ih b (h1.2 b)).mono (by have := h1.1; omega)⟩

theorem seq {α β : Type} {P : Prog α} {k : α → Prog β} {m n : Nat} (h1 : P.Short m) (h : m ≤ n) (h2 : ∀ a, (k a).Short (n - m)) : (P >>= k).Short n :=
  (bind h1 h2).mono (by omega)

theorem pure {α : Type} {n : Nat} (a : α) : (Pure.pure a : Prog α).Short n := trivial
theorem act {β : Type} {l : Option Sect} {f : Choice → St → Tl → Res (St × Tl × β)} : (Prog.act (l := l) f Prog.ret).Short 1 := ⟨Nat.one_pos, fun _ => trivial⟩
theorem one {β : Type} (f : Choice → St → Tl → Res (St × Tl × β)) : (Prog.one f).Short 1 := act
theorem die {α : Type} (m : String) : (HM.die m : Prog α).Short 1 := ⟨Nat.one_pos, fun b => nomatch b⟩
theorem critical {β : Type} {s : Sect} {f : Choice → St → Errno → Res (St × Errno × β)} : (HM.critical ro s f).Short 1 := act
theorem setErrno (e : Errno) : (HM.setErrno e).Short 1 := one _
theorem getErrno : HM.getErrno.Short 1 := one _
theorem unsealMeta : HM.unsealMeta.Short 1 := one _
theorem sealMeta : HM.sealMeta.Short 1 := one _
theorem sysMap (k : Nat) : (HM.sysMap k).Short 1 := one _
theorem sysCall (b : Bool) (f : Choice → Vm → Res (Vm × Bool)) : (HM.sysCall b f).Short 1 := one _
theorem memCopy (a b k : Nat) : (HM.memCopy a b k).Short 1 := one _
theorem memZero (a k : Nat) : (HM.memZero a k).Short 1 := one _
theorem insertRegion (p s gd : Nat) (b : Bool) : (HM.insertRegion ro p s gd b).Short 1 := critical
theorem drawGuard (s : Nat) : (HM.drawGuard ro s).Short 1 := critical
theorem findRegion (p : Nat) (m : String) : (HM.findRegion ro p m).Short 1 := critical
theorem removeRegion (p : Nat) (e : Option Nat) (m : String) : (HM.removeRegion ro p e m).Short 1 := critical
theorem resizeRegion (p a b : Nat) : (HM.resizeRegion ro p a b).Short 1 := critical
theorem quarantineRegion (x : Nat × Nat) : (HM.quarantineRegion ro x).Short 1 := critical
theorem smallAlloc (a b : Nat) : (HM.smallAlloc ro a b).Short 1 := critical
theorem smallFree (p : Nat) (e : Option Nat) : (HM.smallFree ro p e).Short 1 := critical
theorem smallTrim (a b : Nat) : (HM.smallTrim ro a b).Short 1 := critical
theorem smallCheck (a : Nat) : (HM.smallCheck ro a).Short 1 := critical
theorem smallOffset (a : Nat) : (HM.smallOffset ro a).Short 1 := critical
theorem largeObjectSize (a : Nat) : (HM.largeObjectSize ro a).Short 1 := critical
theorem readLargeStats : (HM.readLargeStats ro).Short 1 := critical
theorem readClassStats (a c : Nat) : (HM.readClassStats ro a c).Short 1 := critical

/-- A part of a program whose number of actions is known. -/
syntax "short1" : tactic
/-- Walk through a program up to the end. -/
macro "short" : tactic => `(tactic| repeat (first | with_reducible exact Short.pure _ |
  (with_reducible refine Short.seq (by short1) (by decide) fun _ => ?_) | (with_reducible refine Short.mono (by short1) (by decide)) | split | simp only))
theorem pure0 {α : Type} (a : α) : (Pure.pure a : Prog α).Short 0 := trivial
macro_rules | `(tactic| short1) => `(tactic| with_reducible exact pure0 _)
macro_rules | `(tactic| short1) => `(tactic| with_reducible exact die _)
macro_rules | `(tactic| short1) => `(tactic| with_reducible exact setErrno _)
macro_rules | `(tactic| short1) => `(tactic| with_reducible exact getErrno)
macro_rules | `(tactic| short1) => `(tactic| with_reducible exact unsealMeta)
macro_rules | `(tactic| short1) => `(tactic| with_reducible exact sealMeta)
macro_rules | `(tactic| short1) => `(tactic| with_reducible exact sysMap _)
macro_rules | `(tactic| short1) => `(tactic| with_reducible exact sysCall _ _)
macro_rules | `(tactic| short1) => `(tactic| with_reducible exact memCopy _ _ _)
macro_rules | `(tactic| short1) => `(tactic| with_reducible exact memZero _ _)
macro_rules | `(tactic| short1) => `(tactic| with_reducible exact insertRegion _ _ _ _)
macro_rules | `(tactic| short1) => `(tactic| with_reducible exact drawGuard _)
macro_rules | `(tactic| short1) => `(tactic| with_reducible exact findRegion _ _)
macro_rules | `(tactic| short1) => `(tactic| with_reducible exact removeRegion _ _ _)
macro_rules | `(tactic| short1) => `(tactic| with_reducible exact resizeRegion _ _ _)
macro_rules | `(tactic| short1) => `(tactic| with_reducible exact quarantineRegion _)
macro_rules | `(tactic| short1) => `(tactic| with_reducible exact smallAlloc _ _)
macro_rules | `(tactic| short1) => `(tactic| with_reducible exact smallFree _ _)
macro_rules | `(tactic| short1) => `(tactic| with_reducible exact smallTrim _ _)
macro_rules | `(tactic| short1) => `(tactic| with_reducible exact smallCheck _)
macro_rules | `(tactic| short1) => `(tactic| with_reducible exact smallOffset _)
macro_rules | `(tactic| short1) => `(tactic| with_reducible exact largeObjectSize _)
macro_rules | `(tactic| short1) => `(tactic| with_reducible exact readLargeStats)
macro_rules | `(tactic| short1) => `(tactic| with_reducible exact readClassStats _ _)

theorem deallocatePages (p k gd : Nat) : (HM.deallocatePages p k gd).Short 2 := by
  unfold HM.deallocatePages sysPurge sysUnmap
  short
macro_rules | `(tactic| short1) => `(tactic| with_reducible exact deallocatePages _ _ _)
theorem allocatePages (k gd : Nat) : (HM.allocatePages k gd).Short 3 := by
  unfold HM.allocatePages sysProtect sysUnmap
  short
macro_rules | `(tactic| short1) => `(tactic| with_reducible exact allocatePages _ _)
theorem trimMapping (a b c d e f k : Nat) : (HM.trimMapping a b c d e f k).Short 4 := by
  unfold HM.trimMapping sysUnmap sysUnmapTrail
  short
macro_rules | `(tactic| short1) => `(tactic| with_reducible exact trimMapping _ _ _ _ _ _ _)
theorem mapAligned (a b c d e : Nat) : (HM.mapAligned a b c d e).Short 7 := by
  unfold HM.mapAligned sysProtect sysUnmap
  short
macro_rules | `(tactic| short1) => `(tactic| with_reducible exact mapAligned _ _ _ _ _)
theorem allocatePagesAligned (a b c : Nat) : (HM.allocatePagesAligned a b c).Short 8 := by
  unfold HM.allocatePagesAligned
  simp only
  generalize W64 = w
  short
macro_rules | `(tactic| short1) => `(tactic| with_reducible exact allocatePagesAligned _ _ _)
theorem finishLarge (a b : Nat) (c : Bool) (d : Option Nat) : (HM.finishLarge ro a b c d).Short 4 := by
  unfold HM.finishLarge
  short
macro_rules | `(tactic| short1) => `(tactic| with_reducible exact finishLarge _ _ _ _)
theorem allocateLarge (a : Nat) : (HM.allocateLarge ro a).Short 9 := by
  unfold HM.allocateLarge
  short
macro_rules | `(tactic| short1) => `(tactic| with_reducible exact allocateLarge _)
theorem allocate (a b : Nat) : (HM.allocate ro a b).Short 9 := by
  unfold HM.allocate
  short
macro_rules | `(tactic| short1) => `(tactic| with_reducible exact allocate _ _)
theorem allocateOverAligned (a b : Nat) : (HM.allocateOverAligned ro a b).Short 14 := by
  unfold HM.allocateOverAligned
  short
macro_rules | `(tactic| short1) => `(tactic| with_reducible exact allocateOverAligned _ _)
theorem allocateAligned (a b c d : Nat) : (HM.allocateAligned ro a b c d).Short 16 := by
  unfold HM.allocateAligned
  short
macro_rules | `(tactic| short1) => `(tactic| with_reducible exact allocateAligned _ _ _ _)
theorem allocAligned (a b c d : Nat) : (HM.allocAligned ro a b c d).Short 18 := by
  unfold HM.allocAligned
  short
macro_rules | `(tactic| short1) => `(tactic| with_reducible exact allocAligned _ _ _ _)
theorem allocAlignedSimple (a b c : Nat) : (HM.allocAlignedSimple ro a b c).Short 20 := by
  unfold HM.allocAlignedSimple
  short
macro_rules | `(tactic| short1) => `(tactic| with_reducible exact allocAlignedSimple _ _ _)
theorem alloc (a b : Nat) : (HM.alloc ro a b).Short 11 := by
  unfold HM.alloc
  short
macro_rules | `(tactic| short1) => `(tactic| with_reducible exact alloc _ _)

theorem trimClasses (a : Nat) : ∀ (k c : Nat) (t : Bool), (HM.trimClasses ro a k c t).Short k
  | 0, _, _ => pure _
  | k + 1, c, t => (bind (smallTrim _ _) fun _ => trimClasses a k _ _).mono (by omega)
theorem trimArenas : ∀ (k a : Nat) (t : Bool), (HM.trimArenas ro k a t).Short (k * nClasses ro.g)
  | 0, _, _ => pure _
  | k + 1, a, t => (bind (trimClasses _ _ _ _) fun _ => trimArenas k _ _).mono (by rw [Nat.add_mul]; omega)
theorem sumClasses (a : Nat) : ∀ (k c : Nat) (t : Nat × Nat), (HM.sumClasses ro a k c t).Short k
  | 0, _, _ => pure _
  | k + 1, c, t => (bind (readClassStats _ _) fun _ => sumClasses a k _ _).mono (by omega)
theorem sumArenas : ∀ (k a : Nat) (t : Nat × Nat), (HM.sumArenas ro k a t).Short (k * nClasses ro.g)
  | 0, _, _ => pure _
  | k + 1, a, t => (bind (sumClasses _ _ _ _) fun _ => sumArenas k _ _).mono (by rw [Nat.add_mul]; omega)

theorem quarantineDeallocatePages (a b c : Nat) : (HM.quarantineDeallocatePages ro a b c).Short 6 := by
  unfold HM.quarantineDeallocatePages sysMapFixed sysPurge sysUnmap
  short
macro_rules | `(tactic| short1) => `(tactic| with_reducible exact quarantineDeallocatePages _ _ _)
theorem deallocateLarge (p : Nat) (e : Option Nat) : (HM.deallocateLarge ro p e).Short 8 := by
  unfold HM.deallocateLarge
  short
macro_rules | `(tactic| short1) => `(tactic| with_reducible exact deallocateLarge _ _)
theorem reallocCopy (a p s k : Nat) : (HM.reallocCopy ro a p s k).Short 19 := by
  unfold HM.reallocCopy
  short
macro_rules | `(tactic| short1) => `(tactic| with_reducible exact reallocCopy _ _ _ _)
theorem reallocShrink (p a b c : Nat) : (HM.reallocShrink ro p a b c).Short 10 := by
  unfold HM.reallocShrink sysMapFixed
  short
macro_rules | `(tactic| short1) => `(tactic| with_reducible exact reallocShrink _ _ _ _)
theorem reallocMove (p a b c : Nat) : (HM.reallocMove ro p a b c).Short 16 := by
  unfold HM.reallocMove sysRemap sysUnmap
  short
macro_rules | `(tactic| short1) => `(tactic| with_reducible exact reallocMove _ _ _ _)
theorem reallocLarge (a p k : Nat) : (HM.reallocLarge ro a p k).Short 21 := by
  unfold HM.reallocLarge
  short
macro_rules | `(tactic| short1) => `(tactic| with_reducible exact reallocLarge _ _ _)
theorem reallocSized (a p k : Nat) : (HM.reallocSized ro a p k).Short 21 := by
  unfold HM.reallocSized
  short
macro_rules | `(tactic| short1) => `(tactic| with_reducible exact reallocSized _ _ _)
theorem hRealloc (a p k : Nat) : (HM.hRealloc ro a p k).Short 21 := by
  unfold HM.hRealloc
  short
macro_rules | `(tactic| short1) => `(tactic| with_reducible exact hRealloc _ _ _)
theorem hFree (p : Nat) : (HM.hFree ro p).Short 11 := by
  unfold HM.hFree
  short
macro_rules | `(tactic| short1) => `(tactic| with_reducible exact hFree _)
theorem hFreeSized (p k : Nat) : (HM.hFreeSized ro p k).Short 11 := by
  unfold HM.hFreeSized
  short
macro_rules | `(tactic| short1) => `(tactic| with_reducible exact hFreeSized _ _)

theorem hMalloc (a n : Nat) : (HM.hMalloc ro a n).Short 21 := by
  unfold HM.hMalloc
  short
macro_rules | `(tactic| short1) => `(tactic| with_reducible exact hMalloc _ _)
theorem hCalloc (a n k : Nat) : (HM.hCalloc ro a n k).Short 21 := by
  unfold HM.hCalloc
  short
macro_rules | `(tactic| short1) => `(tactic| with_reducible exact hCalloc _ _ _)
theorem hPosixMemalign (a al n : Nat) : (HM.hPosixMemalign ro a al n).Short 21 := by
  unfold HM.hPosixMemalign
  short
macro_rules | `(tactic| short1) => `(tactic| with_reducible exact hPosixMemalign _ _ _)
theorem hAlignedAlloc (a al n : Nat) : (HM.hAlignedAlloc ro a al n).Short 21 := by
  unfold HM.hAlignedAlloc
  short
macro_rules | `(tactic| short1) => `(tactic| with_reducible exact hAlignedAlloc _ _ _)
theorem hValloc (a n : Nat) : (HM.hValloc ro a n).Short 21 := by
  unfold HM.hValloc
  short
macro_rules | `(tactic| short1) => `(tactic| with_reducible exact hValloc _ _)
theorem hPvalloc (a n : Nat) : (HM.hPvalloc ro a n).Short 21 := by
  unfold HM.hPvalloc
  short
macro_rules | `(tactic| short1) => `(tactic| with_reducible exact hPvalloc _ _)
theorem hUsableSize (p : Nat) : (HM.hUsableSize ro p).Short 21 := by
  unfold HM.hUsableSize
  short
macro_rules | `(tactic| short1) => `(tactic| with_reducible exact hUsableSize _)
theorem hObjectSize (p : Nat) : (HM.hObjectSize ro p).Short 21 := by
  unfold HM.hObjectSize
  short
macro_rules | `(tactic| short1) => `(tactic| with_reducible exact hObjectSize _)
theorem hObjectSizeFast (p : Nat) : (HM.hObjectSizeFast ro p).Short 21 := by
  unfold HM.hObjectSizeFast
  short
macro_rules | `(tactic| short1) => `(tactic| with_reducible exact hObjectSizeFast _)
theorem hTrim : (HM.hTrim ro).Short (ro.g.nArena * nClasses ro.g + 2) := by
  unfold HM.hTrim
  exact (bind unsealMeta fun _ => bind (trimArenas _ _ _) fun _ => bind (n := 0) sealMeta fun _ => pure _).mono (by omega)
theorem hMallinfo : (HM.hMallinfo ro).Short (ro.g.nArena * nClasses ro.g + 3) := by
  unfold HM.hMallinfo
  split
  · exact (bind unsealMeta fun _ => bind readLargeStats fun _ => bind (sumArenas _ _ _) fun _ => bind (n := 0) sealMeta fun _ => pure _).mono (by omega)
  · exact pure _

/-- How many actions a call performs at most: a constant, except for the calls that go through all size classes of all arenas. -/
def _root_.HM.Call.maxActions (g : Cfg) : Call → Nat
  | .trim | .mallinfo => g.nArena * nClasses g + 3
  | _ => 21

theorem call (a : Nat) : ∀ c : Call, (c.prog ro a).Short (c.maxActions ro.g)
  | .malloc n => (bind (n := 0) (hMalloc _ _) fun _ => pure _).mono (by simp only [Call.maxActions]; decide)
  | .calloc n k => (bind (n := 0) (hCalloc _ _ _) fun _ => pure _).mono (by simp only [Call.maxActions]; decide)
  | .realloc p n => (bind (n := 0) (hRealloc _ _ _) fun _ => pure _).mono (by simp only [Call.maxActions]; decide)
  | .posixMemalign al n => (bind (n := 0) (hPosixMemalign _ _ _) fun _ => pure _).mono (by simp only [Call.maxActions]; decide)
  | .alignedAlloc al n => (bind (n := 0) (hAlignedAlloc _ _ _) fun _ => pure _).mono (by simp only [Call.maxActions]; decide)
  | .valloc n => (bind (n := 0) (hValloc _ _) fun _ => pure _).mono (by simp only [Call.maxActions]; decide)
  | .pvalloc n => (bind (n := 0) (hPvalloc _ _) fun _ => pure _).mono (by simp only [Call.maxActions]; decide)
  | .free p => (bind (n := 0) (hFree _) fun _ => pure _).mono (by simp only [Call.maxActions]; decide)
  | .freeSized p n => (bind (n := 0) (hFreeSized _ _) fun _ => pure _).mono (by simp only [Call.maxActions]; decide)
  | .usableSize p => (bind (n := 0) (hUsableSize _) fun _ => pure _).mono (by simp only [Call.maxActions]; decide)
  | .objectSize p => (bind (n := 0) (hObjectSize _) fun _ => pure _).mono (by simp only [Call.maxActions]; decide)
  | .objectSizeFast p => (bind (n := 0) (hObjectSizeFast _) fun _ => pure _).mono (by simp only [Call.maxActions]; decide)
  | .trim => (bind (n := 0) hTrim fun _ => pure _).mono (by simp only [Call.maxActions]; omega)
  | .mallinfo => bind (n := 0) hMallinfo fun _ => pure _

end Prog.Short
end HM
