import Verif.SpecRealloc
import Verif.Seq
/-
How often a call frees a slot of a class, or puts a region in quarantine: at most once, and only if it was given such a block.
-/
namespace HM

variable {ro : Ro} {κ : Option Sect → Nat}

/-- The program performs actions that together cost at most `n`. -/
def Prog.Within (κ : Option Sect → Nat) {α : Type} : Prog α → Nat → Prop
  | .ret _, _ => True
  | .act (l := l) _ k, n => κ l ≤ n ∧ ∀ b, (k b).Within κ (n - κ l)

namespace Prog.Within

theorem mono {α : Type} {P : Prog α} {m n : Nat} (h : P.Within κ m) (hmn : m ≤ n) : P.Within κ n := by
  induction P generalizing m n with
  | ret a => trivial
  | act f k ih => exact ⟨h.1.trans hmn, fun b => ih b (h.2 b) (Nat.sub_le_sub_right hmn _)⟩

theorem bind {α β : Type} {P : Prog α} {k : α → Prog β} {m n : Nat} (h1 : P.Within κ m) (h2 : ∀ a, (k a).Within κ n) : (P >>= k).Within κ (m + n) := by
  show (P.bind k).Within κ (m + n)
  induction P generalizing m with
  | ret a => exact (h2 a).mono (by omega)
  | act f k' ih => exact ⟨h1.1.trans (Nat.le_add_right _ _), fun b => (ih b (h1.2 b)).mono (by have := h1.1; omega)⟩

/-- The first part costs nothing. -/
theorem free {α β : Type} {P : Prog α} {k : α → Prog β} {n : Nat} (h1 : P.Within κ 0) (h2 : ∀ a, (k a).Within κ n) : (P >>= k).Within κ n := by
  have := bind h1 h2
  rwa [Nat.zero_add] at this

/-- The second part costs nothing. -/
theorem last {α β : Type} {P : Prog α} {k : α → Prog β} {n : Nat} (h1 : P.Within κ n) (h2 : ∀ a, (k a).Within κ 0) : (P >>= k).Within κ n := bind h1 h2

theorem pure {α : Type} {n : Nat} (a : α) : (Pure.pure a : Prog α).Within κ n := trivial

theorem act {β : Type} {l : Option Sect} {f : Choice → St → Tl → Res (St × Tl × β)} {n : Nat} (h : κ l ≤ n) : (Prog.act (l := l) f Prog.ret).Within κ n := ⟨h, fun _ => trivial⟩

/-- Which labels cost nothing. -/
structure Cheap (κ : Option Sect → Nat) : Prop where
  nil : κ none = 0
  cls : ∀ a c, κ (some (.cls a c none)) = 0
  reg : ∀ b, κ (some (.regions false b)) = 0

variable (hκ : Cheap κ)
include hκ

theorem one {β : Type} (f : Choice → St → Tl → Res (St × Tl × β)) {n : Nat} : (Prog.one f).Within κ n := act (by rw [hκ.nil]; exact Nat.zero_le _)
theorem setErrno (e : Errno) {n : Nat} : (HM.setErrno e).Within κ n := one hκ _
theorem getErrno {n : Nat} : HM.getErrno.Within κ n := one hκ _
theorem unsealMeta {n : Nat} : HM.unsealMeta.Within κ n := one hκ _
theorem sealMeta {n : Nat} : HM.sealMeta.Within κ n := one hκ _
theorem die {α : Type} (m : String) {n : Nat} : (HM.die m : Prog α).Within κ n := ⟨by rw [hκ.nil]; exact Nat.zero_le _, fun b => nomatch b⟩
theorem sysMap (k : Nat) {n : Nat} : (HM.sysMap k).Within κ n := one hκ _
theorem sysCall (b : Bool) (f : Choice → Vm → Res (Vm × Bool)) {n : Nat} : (HM.sysCall b f).Within κ n := one hκ _
theorem memCopy (a b k : Nat) {n : Nat} : (HM.memCopy a b k).Within κ n := one hκ _
theorem memZero (a k : Nat) {n : Nat} : (HM.memZero a k).Within κ n := one hκ _
omit hκ in
theorem critical {β : Type} {s : Sect} {f : Choice → St → Errno → Res (St × Errno × β)} {n : Nat} (h : κ (some s) ≤ n) : (HM.critical ro s f).Within κ n := act h
theorem regions {β : Type} {f : Choice → St → Errno → Res (St × Errno × β)} {n : Nat} {b : Bool} : (HM.critical ro (.regions false b) f).Within κ n :=
  critical (by rw [hκ.reg]; exact Nat.zero_le _)
theorem reads {β : Type} {a c : Nat} {f : Choice → St → Errno → Res (St × Errno × β)} {n : Nat} : (HM.critical ro (.cls a c none) f).Within κ n :=
  critical (by rw [hκ.cls]; exact Nat.zero_le _)

omit hκ in
theorem ite {α : Type} {p : Prop} [Decidable p] {P Q : Prog α} {n : Nat} (h1 : p → P.Within κ n) (h2 : ¬ p → Q.Within κ n) : (if p then P else Q).Within κ n := by
  split
  · exact h1 ‹_›
  · exact h2 ‹_›

/-- One step through a program. -/
syntax "budget1" : tactic
/-- Walk through a program that costs nothing up to the end. -/
macro "budget" : tactic => `(tactic| repeat (first | with_reducible exact Within.pure _ | with_reducible assumption | budget1 |
  (with_reducible refine Within.free ?_ fun _ => ?_) | split | simp only))
macro_rules | `(tactic| budget1) => `(tactic| with_reducible exact setErrno ‹_› _)
macro_rules | `(tactic| budget1) => `(tactic| with_reducible exact getErrno ‹_›)
macro_rules | `(tactic| budget1) => `(tactic| with_reducible exact unsealMeta ‹_›)
macro_rules | `(tactic| budget1) => `(tactic| with_reducible exact sealMeta ‹_›)
macro_rules | `(tactic| budget1) => `(tactic| with_reducible exact die ‹_› _)
macro_rules | `(tactic| budget1) => `(tactic| with_reducible exact sysMap ‹_› _)
macro_rules | `(tactic| budget1) => `(tactic| with_reducible exact sysCall ‹_› _ _)
macro_rules | `(tactic| budget1) => `(tactic| with_reducible exact memCopy ‹_› _ _ _)
macro_rules | `(tactic| budget1) => `(tactic| with_reducible exact memZero ‹_› _ _)
macro_rules | `(tactic| budget1) => `(tactic| with_reducible exact regions ‹_›)
macro_rules | `(tactic| budget1) => `(tactic| with_reducible exact reads ‹_›)

theorem deallocatePages (p k gd : Nat) {n : Nat} : (HM.deallocatePages p k gd).Within κ n := by
  unfold HM.deallocatePages sysPurge sysUnmap
  budget
macro_rules | `(tactic| budget1) => `(tactic| with_reducible exact deallocatePages ‹_› _ _ _)
theorem allocatePages (k gd : Nat) {n : Nat} : (HM.allocatePages k gd).Within κ n := by
  unfold HM.allocatePages sysProtect sysUnmap
  budget
macro_rules | `(tactic| budget1) => `(tactic| with_reducible exact allocatePages ‹_› _ _)
theorem trimMapping (a b c d e f k : Nat) {n : Nat} : (HM.trimMapping a b c d e f k).Within κ n := by
  unfold HM.trimMapping sysUnmap sysUnmapTrail
  budget
macro_rules | `(tactic| budget1) => `(tactic| with_reducible exact trimMapping ‹_› _ _ _ _ _ _ _)
theorem mapAligned (a b c d e : Nat) {n : Nat} : (HM.mapAligned a b c d e).Within κ n := by
  unfold HM.mapAligned sysProtect sysUnmap
  budget
macro_rules | `(tactic| budget1) => `(tactic| with_reducible exact mapAligned ‹_› _ _ _ _ _)
theorem allocatePagesAligned (a b c : Nat) {n : Nat} : (HM.allocatePagesAligned a b c).Within κ n := by
  unfold HM.allocatePagesAligned
  simp only
  generalize W64 = w
  budget
macro_rules | `(tactic| budget1) => `(tactic| with_reducible exact allocatePagesAligned ‹_› _ _ _)
theorem insertRegion (p s gd : Nat) (b : Bool) {n : Nat} : (HM.insertRegion ro p s gd b).Within κ n := regions hκ
theorem drawGuard (s : Nat) {n : Nat} : (HM.drawGuard ro s).Within κ n := regions hκ
theorem findRegion (p : Nat) (m : String) {n : Nat} : (HM.findRegion ro p m).Within κ n := regions hκ
theorem removeRegion (p : Nat) (e : Option Nat) (m : String) {n : Nat} : (HM.removeRegion ro p e m).Within κ n := regions hκ
theorem resizeRegion (p a b : Nat) {n : Nat} : (HM.resizeRegion ro p a b).Within κ n := regions hκ
theorem smallAlloc (a b : Nat) {n : Nat} : (HM.smallAlloc ro a b).Within κ n := reads hκ
theorem smallTrim (a b : Nat) {n : Nat} : (HM.smallTrim ro a b).Within κ n := reads hκ
theorem smallCheck (a : Nat) {n : Nat} : (HM.smallCheck ro a).Within κ n := reads hκ
theorem smallOffset (a : Nat) {n : Nat} : (HM.smallOffset ro a).Within κ n := reads hκ
theorem largeObjectSize (a : Nat) {n : Nat} : (HM.largeObjectSize ro a).Within κ n := regions hκ
theorem readLargeStats {n : Nat} : (HM.readLargeStats ro).Within κ n := regions hκ
theorem readClassStats (a c : Nat) {n : Nat} : (HM.readClassStats ro a c).Within κ n := reads hκ
macro_rules | `(tactic| budget1) => `(tactic| with_reducible exact insertRegion ‹_› _ _ _ _)
macro_rules | `(tactic| budget1) => `(tactic| with_reducible exact drawGuard ‹_› _)
macro_rules | `(tactic| budget1) => `(tactic| with_reducible exact findRegion ‹_› _ _)
macro_rules | `(tactic| budget1) => `(tactic| with_reducible exact removeRegion ‹_› _ _ _)
macro_rules | `(tactic| budget1) => `(tactic| with_reducible exact resizeRegion ‹_› _ _ _)
macro_rules | `(tactic| budget1) => `(tactic| with_reducible exact smallAlloc ‹_› _ _)
macro_rules | `(tactic| budget1) => `(tactic| with_reducible exact smallTrim ‹_› _ _)
macro_rules | `(tactic| budget1) => `(tactic| with_reducible exact smallCheck ‹_› _)
macro_rules | `(tactic| budget1) => `(tactic| with_reducible exact smallOffset ‹_› _)
macro_rules | `(tactic| budget1) => `(tactic| with_reducible exact largeObjectSize ‹_› _)
macro_rules | `(tactic| budget1) => `(tactic| with_reducible exact readLargeStats ‹_›)
macro_rules | `(tactic| budget1) => `(tactic| with_reducible exact readClassStats ‹_› _ _)
theorem finishLarge (a b : Nat) (c : Bool) (d : Option Nat) {n : Nat} : (HM.finishLarge ro a b c d).Within κ n := by
  unfold HM.finishLarge
  budget
macro_rules | `(tactic| budget1) => `(tactic| with_reducible exact finishLarge ‹_› _ _ _ _)
theorem allocateLarge (a : Nat) {n : Nat} : (HM.allocateLarge ro a).Within κ n := by
  unfold HM.allocateLarge
  budget
macro_rules | `(tactic| budget1) => `(tactic| with_reducible exact allocateLarge ‹_› _)
theorem allocate (a b : Nat) {n : Nat} : (HM.allocate ro a b).Within κ n := by
  unfold HM.allocate
  budget
macro_rules | `(tactic| budget1) => `(tactic| with_reducible exact allocate ‹_› _ _)
theorem allocateOverAligned (a b : Nat) {n : Nat} : (HM.allocateOverAligned ro a b).Within κ n := by
  unfold HM.allocateOverAligned
  budget
macro_rules | `(tactic| budget1) => `(tactic| with_reducible exact allocateOverAligned ‹_› _ _)
theorem allocateAligned (a b c d : Nat) {n : Nat} : (HM.allocateAligned ro a b c d).Within κ n := by
  unfold HM.allocateAligned
  budget
macro_rules | `(tactic| budget1) => `(tactic| with_reducible exact allocateAligned ‹_› _ _ _ _)
theorem allocAligned (a b c d : Nat) {n : Nat} : (HM.allocAligned ro a b c d).Within κ n := by
  unfold HM.allocAligned
  budget
macro_rules | `(tactic| budget1) => `(tactic| with_reducible exact allocAligned ‹_› _ _ _ _)
theorem allocAlignedSimple (a b c : Nat) {n : Nat} : (HM.allocAlignedSimple ro a b c).Within κ n := by
  unfold HM.allocAlignedSimple
  budget
macro_rules | `(tactic| budget1) => `(tactic| with_reducible exact allocAlignedSimple ‹_› _ _ _)
theorem alloc (a b : Nat) {n : Nat} : (HM.alloc ro a b).Within κ n := by
  unfold HM.alloc
  budget
macro_rules | `(tactic| budget1) => `(tactic| with_reducible exact alloc ‹_› _ _)

theorem trimClasses (a : Nat) : ∀ (k c : Nat) (t : Bool) {n : Nat}, (HM.trimClasses ro a k c t).Within κ n
  | 0, _, _, _ => pure _
  | k + 1, c, t, _ => free (smallTrim hκ _ _) fun _ => trimClasses a k _ _
theorem trimArenas : ∀ (k a : Nat) (t : Bool) {n : Nat}, (HM.trimArenas ro k a t).Within κ n
  | 0, _, _, _ => pure _
  | k + 1, a, t, _ => free (trimClasses hκ _ _ _ _) fun _ => trimArenas k _ _
theorem sumClasses (a : Nat) : ∀ (k c : Nat) (t : Nat × Nat) {n : Nat}, (HM.sumClasses ro a k c t).Within κ n
  | 0, _, _, _ => pure _
  | k + 1, c, t, _ => free (readClassStats hκ _ _) fun _ => sumClasses a k _ _
theorem sumArenas : ∀ (k a : Nat) (t : Nat × Nat) {n : Nat}, (HM.sumArenas ro k a t).Within κ n
  | 0, _, _, _ => pure _
  | k + 1, a, t, _ => free (sumClasses hκ _ _ _ _) fun _ => sumArenas k _ _
macro_rules | `(tactic| budget1) => `(tactic| with_reducible exact trimArenas ‹_› _ _ _)
macro_rules | `(tactic| budget1) => `(tactic| with_reducible exact sumArenas ‹_› _ _ _)

/-! ### Calls that free -/

variable {p n : Nat}

theorem smallFree {e : Option Nat} (h : κ (some (.cls (ro.sizeClassOf p).1 (ro.sizeClassOf p).2 (some p))) ≤ n) : (HM.smallFree ro p e).Within κ n := critical h

theorem quarantineDeallocatePages {a b c : Nat} (h : κ (some (.regions true false)) ≤ n) : (HM.quarantineDeallocatePages ro a b c).Within κ n := by
  have hq : ∀ x, (quarantineRegion ro x).Within κ n := fun x => critical h
  unfold HM.quarantineDeallocatePages sysMapFixed sysPurge sysUnmap
  refine ite (fun _ => deallocatePages hκ _ _ _) fun _ => ?_
  have hj : ∀ {β : Type} (x : Nat × Nat) (k : Option (Nat × Nat) → Prog β), (∀ y, (k y).Within κ 0) → (quarantineRegion ro x >>= k).Within κ n :=
    fun x k hk => last (hq x) hk
  refine free (sysCall hκ _ _) fun _ => ite (fun _ => free (sysCall hκ _ _) fun _ => hj _ _ fun _ => ?_) fun _ => hj _ _ fun _ => ?_
  · budget
  · budget

theorem deallocateLarge {e : Option Nat} (h : κ (some (.regions true false)) ≤ n) : (HM.deallocateLarge ro p e).Within κ n :=
  free (unsealMeta hκ) fun _ => free (removeRegion hκ _ _ _) fun _ => quarantineDeallocatePages hκ h

theorem reallocCopy {a s k : Nat} (h1 : s ≤ ro.g.maxSlab → κ (some (.cls (ro.sizeClassOf p).1 (ro.sizeClassOf p).2 (some p))) ≤ n)
    (h2 : ro.g.maxSlab < s → κ (some (.regions true false)) ≤ n) : (HM.reallocCopy ro a p s k).Within κ n := by
  unfold HM.reallocCopy
  refine free (allocate hκ _ _) fun o => ?_
  match o with
  | none => dsimp only; budget
  | some q =>
      dsimp only
      refine free (memCopy hκ _ _ _) fun _ => ite (fun h => last (smallFree hκ (h1 h)) fun _ => ?_)
        fun h => last (deallocateLarge hκ (h2 (by omega))) fun _ => ?_
      · budget
      · budget

theorem reallocShrink {a b c : Nat} (h : κ (some (.regions true false)) ≤ n) : (HM.reallocShrink ro p a b c).Within κ n := by
  unfold HM.reallocShrink
  refine free (sysCall hκ _ _) fun _ => ite (fun _ => ?_) fun _ => last (quarantineDeallocatePages hκ h) fun _ => ?_
  · budget
  · budget

theorem reallocMove {a b c : Nat} : (HM.reallocMove ro p a b c).Within κ n := by
  unfold HM.reallocMove sysRemap sysUnmap
  budget

theorem reallocLarge {a k : Nat} (h1 : κ (some (.cls (ro.sizeClassOf p).1 (ro.sizeClassOf p).2 (some p))) ≤ n)
    (h2 : κ (some (.regions true false)) ≤ n) : (HM.reallocLarge ro a p k).Within κ n := by
  unfold HM.reallocLarge
  refine free (unsealMeta hκ) fun _ => free (findRegion hκ _ _) fun _ => ite (fun _ => ?_) fun _ =>
    ite (fun _ => reallocShrink hκ h2) fun _ => ite (fun _ => reallocMove hκ) fun _ => reallocCopy hκ (fun _ => h1) fun _ => h2
  budget

/-- What a call may cost: only calls that are given a block to free or resize can. -/
def _root_.HM.Call.cost (κ : Option Sect → Nat) (ro : Ro) : Call → Nat
  | .free p | .freeSized p _ | .realloc p _ =>
      if p = 0 then 0
      else if ro.inSlab p then κ (some (.cls (ro.sizeClassOf p).1 (ro.sizeClassOf p).2 (some p)))
      else max (κ (some (.cls (ro.sizeClassOf p).1 (ro.sizeClassOf p).2 (some p)))) (κ (some (.regions true false)))
  | _ => 0

theorem hRealloc (hro : RoOk ro) {a k : Nat} : (HM.hRealloc ro a p k).Within κ ((Call.realloc p k).cost κ ro) := by
  have hs : p ≠ 0 → ∀ k, (HM.reallocSized ro a p k).Within κ ((Call.realloc p k).cost κ ro) := by
    intro hp k
    unfold HM.reallocSized Call.cost
    simp only [if_neg hp]
    by_cases hin : ro.inSlab p = true
    · rw [if_pos hin, if_pos hin]
      refine ite (fun _ => pure _) fun _ => free (unsealMeta hκ) fun _ => reallocCopy hκ (fun _ => le_rfl) fun h => ?_
      have := classSize_le_maxSlab (hro.sizeClassOf_lt hin).2.1
      unfold Ro.slabUsableSize at h
      omega
    · rw [if_neg hin, if_neg hin]
      exact reallocLarge hκ (le_max_left _ _) (le_max_right _ _)
  unfold HM.hRealloc
  refine ite (fun _ => alloc hκ _ _) fun hp => ite (fun _ => ite (fun _ => ?_) fun _ => hs hp _) fun _ => hs hp _
  budget

theorem hFree : (HM.hFree ro p).Within κ ((Call.free p).cost κ ro) := by
  unfold HM.hFree Call.cost
  refine ite (fun _ => pure _) fun hp => ?_
  simp only [if_neg hp]
  by_cases hin : ro.inSlab p = true
  · rw [if_pos hin, if_pos hin]
    exact free (unsealMeta hκ) fun _ => last (smallFree hκ le_rfl) fun _ => sealMeta hκ
  · rw [if_neg hin, if_neg hin]
    exact free (getErrno hκ) fun _ => last (deallocateLarge hκ (le_max_right _ _)) fun _ => free (setErrno hκ _) fun _ => sealMeta hκ

theorem hFreeSized {k : Nat} : (HM.hFreeSized ro p k).Within κ ((Call.freeSized p k).cost κ ro) := by
  unfold HM.hFreeSized Call.cost
  refine ite (fun _ => pure _) fun hp => ?_
  simp only [if_neg hp]
  by_cases hin : ro.inSlab p = true
  · rw [if_pos hin, if_pos hin]
    exact free (unsealMeta hκ) fun _ => last (smallFree hκ le_rfl) fun _ => sealMeta hκ
  · rw [if_neg hin, if_neg hin]
    exact last (deallocateLarge hκ (le_max_right _ _)) fun _ => sealMeta hκ

/-- What a call does stays within what it may cost. -/
theorem call (hro : RoOk ro) (a : Nat) : ∀ c : Call, (c.prog ro a).Within κ (c.cost κ ro)
  | .malloc n => by unfold Call.prog HM.hMalloc; budget
  | .calloc n k => by unfold Call.prog HM.hCalloc; budget
  | .realloc p n => last (hRealloc hκ hro) fun _ => pure _
  | .posixMemalign al n => by unfold Call.prog HM.hPosixMemalign; budget
  | .alignedAlloc al n => by unfold Call.prog HM.hAlignedAlloc; budget
  | .valloc n => by unfold Call.prog HM.hValloc; budget
  | .pvalloc n => by unfold Call.prog HM.hPvalloc; budget
  | .free p => last (hFree hκ) fun _ => pure _
  | .freeSized p n => last (hFreeSized hκ) fun _ => pure _
  | .usableSize p => by unfold Call.prog HM.hUsableSize; budget
  | .objectSize p => by unfold Call.prog HM.hObjectSize; budget
  | .objectSizeFast p => by unfold Call.prog HM.hObjectSizeFast; budget
  | .trim => by unfold Call.prog HM.hTrim; budget
  | .mallinfo => by unfold Call.prog HM.hMallinfo; budget

end Prog.Within
end HM
