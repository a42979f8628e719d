import Verif.SpecRealloc
import Verif.SpecApi
import Verif.Seq
/-
Which locks of size classes the program of a call may take. `S a c` says that class `c` of arena `a` belongs to a chosen set of size classes.
-/
namespace HM

variable {ro : Ro} {S : Nat → Nat → Bool}

/-- A part of the state that belongs to a class in `S`. -/
def InS (ro : Ro) (S : Nat → Nat → Bool) : Cell → Prop
  | .sc a c => a < ro.g.nArena ∧ c < nClasses ro.g ∧ S a c = true
  | .prot pg => ∃ a c, a < ro.g.nArena ∧ c < nClasses ro.g ∧ S a c = true ∧ ClassMem ro a c (pg * PAGE)
  | .mem x => ∃ a c, a < ro.g.nArena ∧ c < nClasses ro.g ∧ S a c = true ∧ ClassMem ro a c x
  | .regs => False

/-- No action of the program holds the lock of a class in `S`, except, if `rd`, to read. -/
def Prog.Avoids (ro : Ro) (S : Nat → Nat → Bool) (rd : Bool) {α : Type} : Prog α → Prop
  | .ret _ => True
  | .act (l := l) f k => ((∀ a c fr, l = some (.cls a c fr) → (a < ro.g.nArena → c < nClasses ro.g → S a c = false) ∧
        ((a < ro.g.nArena ∧ c < nClasses ro.g) ∨ ∀ ch σ σ' tl, f ch σ' tl = f ch σ tl)) ∨ rd = true ∧ ∀ ch σ tl r, f ch σ tl = .ok r → r.1 = σ) ∧
      ∀ b, (k b).Avoids ro S rd

/-- Every action of the program holds the lock of a class in `S`, or uses and changes no part of the state outside of `S`, except for what belongs to the thread that executes it. The
results of the program satisfy `Q`. -/
def Prog.StaysIn (ro : Ro) (S : Nat → Nat → Bool) {α : Type} (Q : α → Prop) : Prog α → Prop
  | .ret a => Q a
  | @Prog.act _ _ l f k => ((∃ a c fr, l = some (.cls a c fr) ∧ a < ro.g.nArena ∧ c < nClasses ro.g ∧ S a c = true) ∨
      ∀ σ σ' : St, (∀ x, InS ro S x → σ'.agree σ x) → ∀ ch tl, Res.Rel (fun r r' => r'.2 = r.2 ∧ ∀ x, InS ro S x → r'.1.agree r.1 x) (f ch σ tl) (f ch σ' tl) ∧
        ∀ r, f ch σ tl = .ok r → ∀ x, ¬ InS ro S x → r.1.agree σ x) ∧
      ∀ w ch tl r, GInv ro w → f ch w.σ tl = .ok r → (k r.2.2).StaysIn ro S Q

/-- Address `x` is in the part of the address space that is reserved for the size classes in `S`. -/
def Ro.inArea (ro : Ro) (S : Nat → Nat → Bool) (x : Nat) : Bool := ro.inSlab x && S (ro.sizeClassOf x).1 (ro.sizeClassOf x).2

/-- A block of `n` bytes is small, and in a thread with arena `a` it comes from a size class in `S`. -/
def Ro.allocIn (ro : Ro) (S : Nat → Nat → Bool) (a n : Nat) : Prop :=
  adjustSizeForCanary ro.g n ≤ ro.g.maxSlab ∧ S a (getSizeInfo (adjustSizeForCanary ro.g n)).cls = true

/-- A block of `size` bytes (with the canary) at a multiple of `al` is small, and in a thread with arena `a` it comes from a size class in `S`. -/
def Ro.alignedSizeIn (ro : Ro) (S : Nat → Nat → Bool) (a al size : Nat) : Prop :=
  al ≤ PAGE ∧ size ≤ ro.g.maxSlab ∧ ∃ m, (if 16 < al then (getSizeInfoAlign ro.g size al).map (·.size) else some size) = some m ∧ m ≤ ro.g.maxSlab ∧ S a (getSizeInfo m).cls = true

/-- A block of `n` bytes at a multiple of `al` is small, and in a thread with arena `a` it comes from a size class in `S`. -/
def Ro.alignedIn (ro : Ro) (S : Nat → Nat → Bool) (a al n : Nat) : Prop := ro.alignedSizeIn S a al (adjustSizeForCanary ro.g n)

namespace Avoids

variable {rd : Bool}

theorem pure {α : Type} (a : α) : (Pure.pure a : Prog α).Avoids ro S rd := trivial

theorem bind {α β : Type} {P : Prog α} {k : α → Prog β} (h1 : P.Avoids ro S rd) (h2 : ∀ a, (k a).Avoids ro S rd) : (P >>= k).Avoids ro S rd := by
  show (P.bind k).Avoids ro S rd
  induction P with
  | ret a => exact h2 a
  | act f k' ih => exact ⟨h1.1, fun b => ih b (h1.2 b)⟩

theorem one {β : Type} (f : Choice → St → Tl → Res (St × Tl × β)) : (Prog.one f).Avoids ro S rd := ⟨.inl (fun _ _ _ e => by cases e), fun _ => trivial⟩
theorem setErrno (e : Errno) : (HM.setErrno e).Avoids ro S rd := one _
theorem getErrno : HM.getErrno.Avoids ro S rd := one _
theorem unsealMeta : HM.unsealMeta.Avoids ro S rd := one _
theorem sealMeta : HM.sealMeta.Avoids ro S rd := one _
theorem die {α : Type} (m : String) : (HM.die m : Prog α).Avoids ro S rd := ⟨.inl (fun _ _ _ e => by cases e), fun b => nomatch b⟩
theorem sysMap (k : Nat) : (HM.sysMap k).Avoids ro S rd := one _
theorem sysCall (b : Bool) (f : Choice → Vm → Res (Vm × Bool)) : (HM.sysCall b f).Avoids ro S rd := one _
theorem memCopy (a b k : Nat) : (HM.memCopy a b k).Avoids ro S rd := one _
theorem memZero (a k : Nat) : (HM.memZero a k).Avoids ro S rd := one _
theorem regions {β : Type} {f : Choice → St → Errno → Res (St × Errno × β)} {q b : Bool} : (HM.critical ro (.regions q b) f).Avoids ro S rd :=
  ⟨.inl (fun _ _ _ e => by cases e), fun _ => trivial⟩
theorem cls {β : Type} {f : Choice → St → Errno → Res (St × Errno × β)} {a c : Nat} {fr : Option Nat} {m : String} (h : a < ro.g.nArena → c < nClasses ro.g → S a c = false)
    (hf : nClasses ro.g ≤ c ∨ ro.g.nArena ≤ a → ∀ ch σ e, f ch σ e = .ub m) : (HM.critical ro (.cls a c fr) f).Avoids ro S rd := by
  refine ⟨.inl fun _ _ _ e => ?_, fun _ => trivial⟩
  cases e
  refine ⟨h, ?_⟩
  by_cases hx : a < ro.g.nArena ∧ c < nClasses ro.g
  · exact .inl hx
  · refine .inr fun ch σ σ' tl => ?_
    dsimp only
    rw [hf (by omega), hf (by omega)]
theorem reads {β : Type} {s : Sect} {f : St → β} : (HM.critical ro s fun _ σ e => .ok (σ, e, f σ)).Avoids ro S true := by
  refine ⟨.inr ⟨rfl, fun ch σ tl r e => ?_⟩, fun _ => trivial⟩
  dsimp only at e
  split at e
  · cases e
  · cases e; rfl

theorem ite {α : Type} {p : Prop} [Decidable p] {P Q : Prog α} (h1 : p → P.Avoids ro S rd) (h2 : ¬ p → Q.Avoids ro S rd) : (if p then P else Q).Avoids ro S rd := by
  split
  · exact h1 ‹_›
  · exact h2 ‹_›

/-- One step through a program. -/
syntax "avoid1" : tactic
/-- Walk through a program. -/
macro "avoid" : tactic => `(tactic| repeat (first | with_reducible exact Avoids.pure _ | with_reducible assumption | avoid1 |
  (with_reducible refine Avoids.bind ?_ fun _ => ?_) | split | simp only))
macro_rules | `(tactic| avoid1) => `(tactic| with_reducible exact setErrno _)
macro_rules | `(tactic| avoid1) => `(tactic| with_reducible exact getErrno)
macro_rules | `(tactic| avoid1) => `(tactic| with_reducible exact unsealMeta)
macro_rules | `(tactic| avoid1) => `(tactic| with_reducible exact sealMeta)
macro_rules | `(tactic| avoid1) => `(tactic| with_reducible exact die _)
macro_rules | `(tactic| avoid1) => `(tactic| with_reducible exact sysMap _)
macro_rules | `(tactic| avoid1) => `(tactic| with_reducible exact sysCall _ _)
macro_rules | `(tactic| avoid1) => `(tactic| with_reducible exact memCopy _ _ _)
macro_rules | `(tactic| avoid1) => `(tactic| with_reducible exact memZero _ _)
macro_rules | `(tactic| avoid1) => `(tactic| with_reducible exact regions)

theorem deallocatePages (p k gd : Nat) : (HM.deallocatePages p k gd).Avoids ro S rd := by
  unfold HM.deallocatePages sysPurge sysUnmap
  avoid
macro_rules | `(tactic| avoid1) => `(tactic| with_reducible exact deallocatePages _ _ _)
theorem allocatePages (k gd : Nat) : (HM.allocatePages k gd).Avoids ro S rd := by
  unfold HM.allocatePages sysProtect sysUnmap
  avoid
macro_rules | `(tactic| avoid1) => `(tactic| with_reducible exact allocatePages _ _)
theorem trimMapping (a b c d e f k : Nat) : (HM.trimMapping a b c d e f k).Avoids ro S rd := by
  unfold HM.trimMapping sysUnmap sysUnmapTrail
  avoid
macro_rules | `(tactic| avoid1) => `(tactic| with_reducible exact trimMapping _ _ _ _ _ _ _)
theorem mapAligned (a b c d e : Nat) : (HM.mapAligned a b c d e).Avoids ro S rd := by
  unfold HM.mapAligned sysProtect sysUnmap
  avoid
macro_rules | `(tactic| avoid1) => `(tactic| with_reducible exact mapAligned _ _ _ _ _)
theorem allocatePagesAligned (a b c : Nat) : (HM.allocatePagesAligned a b c).Avoids ro S rd := by
  unfold HM.allocatePagesAligned
  simp only
  generalize W64 = w
  avoid
macro_rules | `(tactic| avoid1) => `(tactic| with_reducible exact allocatePagesAligned _ _ _)
theorem insertRegion (p s gd : Nat) (b : Bool) : (HM.insertRegion ro p s gd b).Avoids ro S rd := regions
theorem drawGuard (s : Nat) : (HM.drawGuard ro s).Avoids ro S rd := regions
theorem findRegion (p : Nat) (m : String) : (HM.findRegion ro p m).Avoids ro S rd := regions
theorem removeRegion (p : Nat) (e : Option Nat) (m : String) : (HM.removeRegion ro p e m).Avoids ro S rd := regions
theorem resizeRegion (p a b : Nat) : (HM.resizeRegion ro p a b).Avoids ro S rd := regions
theorem quarantineRegion (x : Nat × Nat) : (HM.quarantineRegion ro x).Avoids ro S rd := regions
theorem largeObjectSize (a : Nat) : (HM.largeObjectSize ro a).Avoids ro S rd := regions
macro_rules | `(tactic| avoid1) => `(tactic| with_reducible exact insertRegion _ _ _ _)
macro_rules | `(tactic| avoid1) => `(tactic| with_reducible exact drawGuard _)
macro_rules | `(tactic| avoid1) => `(tactic| with_reducible exact findRegion _ _)
macro_rules | `(tactic| avoid1) => `(tactic| with_reducible exact removeRegion _ _ _)
macro_rules | `(tactic| avoid1) => `(tactic| with_reducible exact resizeRegion _ _ _)
macro_rules | `(tactic| avoid1) => `(tactic| with_reducible exact quarantineRegion _)
macro_rules | `(tactic| avoid1) => `(tactic| with_reducible exact largeObjectSize _)
theorem finishLarge (a b : Nat) (c : Bool) (d : Option Nat) : (HM.finishLarge ro a b c d).Avoids ro S rd := by
  unfold HM.finishLarge
  avoid
macro_rules | `(tactic| avoid1) => `(tactic| with_reducible exact finishLarge _ _ _ _)
theorem allocateLarge (a : Nat) : (HM.allocateLarge ro a).Avoids ro S rd := by
  unfold HM.allocateLarge
  avoid
macro_rules | `(tactic| avoid1) => `(tactic| with_reducible exact allocateLarge _)
theorem allocateOverAligned (a b : Nat) : (HM.allocateOverAligned ro a b).Avoids ro S rd := by
  unfold HM.allocateOverAligned
  avoid
macro_rules | `(tactic| avoid1) => `(tactic| with_reducible exact allocateOverAligned _ _)
theorem quarantineDeallocatePages (a b c : Nat) : (HM.quarantineDeallocatePages ro a b c).Avoids ro S rd := by
  unfold HM.quarantineDeallocatePages sysMapFixed sysPurge sysUnmap
  avoid
macro_rules | `(tactic| avoid1) => `(tactic| with_reducible exact quarantineDeallocatePages _ _ _)
theorem deallocateLarge (p : Nat) (e : Option Nat) : (HM.deallocateLarge ro p e).Avoids ro S rd := by
  unfold HM.deallocateLarge
  avoid
macro_rules | `(tactic| avoid1) => `(tactic| with_reducible exact deallocateLarge _ _)

/-- An allocation does not use `S`. -/
theorem allocate {a n : Nat} (h : n ≤ ro.g.maxSlab → S a (getSizeInfo n).cls = false) : (HM.allocate ro a n).Avoids ro S rd :=
  ite (fun hn => cls (fun _ _ => h hn) fun hx _ _ _ => if_pos hx) fun _ => allocateLarge _

theorem alloc {a n : Nat} (h : n ≤ ro.g.maxSlab → S a (getSizeInfo n).cls = false) : (HM.alloc ro a n).Avoids ro S rd := by
  have := allocate (rd := rd) h
  unfold HM.alloc
  avoid

theorem sumClasses (a : Nat) : ∀ n c t, (HM.sumClasses ro a n c t).Avoids ro S true
  | 0, _, _ => pure _
  | n + 1, _, _ => bind reads fun _ => sumClasses a n _ _

theorem sumArenas : ∀ n a t, (HM.sumArenas ro n a t).Avoids ro S true
  | 0, _, _ => pure _
  | n + 1, _, _ => bind (sumClasses _ _ _ _) fun _ => sumArenas n _ _

theorem hMallinfo : (HM.hMallinfo ro).Avoids ro S true :=
  ite (fun _ => bind unsealMeta fun _ => bind reads fun _ => bind (sumArenas _ _ _) fun _ => bind sealMeta fun _ => pure _) fun _ => pure _

theorem allocateAligned {a b n d : Nat} (h : ¬ ro.alignedSizeIn S a b n) : (HM.allocateAligned ro a b n d).Avoids ro S rd := by
  unfold HM.allocateAligned
  refine ite (fun _ => pure _) fun _ => ite (fun hb => ite (fun hs => ?_) fun hs => bind (allocate fun hn => ?_) fun _ => ?_) fun _ => ?_
  · split
    · exact die _
    · next i hi =>
      refine bind (allocate fun hn => ?_) fun _ => by avoid
      by_contra hS
      exact h ⟨hb, hs.1, i.size, by rw [if_pos hs.2, hi]; rfl, hn, by simpa using hS⟩
  · by_contra hS
    exact h ⟨hb, hn, n, if_neg (fun h16 => hs ⟨hn, h16⟩), hn, by simpa using hS⟩
  · avoid
  · avoid

theorem allocAligned {a b n : Nat} (h : ¬ ro.alignedIn S a b n) (d : Nat) : (HM.allocAligned ro a b n d).Avoids ro S rd := by
  unfold HM.allocAligned
  exact bind unsealMeta fun _ => bind (allocateAligned h) fun _ => by avoid

theorem allocAlignedSimple {a b n : Nat} (h : ¬ ro.alignedIn S a b n) : (HM.allocAlignedSimple ro a b n).Avoids ro S rd := by
  unfold HM.allocAlignedSimple
  exact bind (allocAligned h _) fun _ => by avoid

theorem reallocCopy {a p s k : Nat} (h1 : k ≤ ro.g.maxSlab → S a (getSizeInfo k).cls = false)
    (h2 : (ro.sizeClassOf p).1 < ro.g.nArena → (ro.sizeClassOf p).2 < nClasses ro.g → S (ro.sizeClassOf p).1 (ro.sizeClassOf p).2 = false) :
    (HM.reallocCopy ro a p s k).Avoids ro S rd := by
  have h3 : ∀ e, (HM.smallFree ro p e).Avoids ro S rd := fun e => cls h2 fun hx _ _ _ => if_pos hx
  unfold HM.reallocCopy
  refine bind (allocate h1) fun o => ?_
  match o with
  | none => dsimp only; avoid
  | some q =>
      dsimp only
      refine bind (memCopy _ _ _) fun _ => ite (fun h => bind (h3 _) fun _ => ?_) fun h => ?_
      · avoid
      · avoid

theorem reallocShrink (p a b c : Nat) : (HM.reallocShrink ro p a b c).Avoids ro S rd := by
  unfold HM.reallocShrink sysMapFixed
  avoid

theorem reallocMove (p a b c : Nat) : (HM.reallocMove ro p a b c).Avoids ro S rd := by
  unfold HM.reallocMove sysRemap sysUnmap
  avoid

theorem reallocSized {a p k : Nat} (h1 : k ≤ ro.g.maxSlab → S a (getSizeInfo k).cls = false)
    (h2 : (ro.sizeClassOf p).1 < ro.g.nArena → (ro.sizeClassOf p).2 < nClasses ro.g → S (ro.sizeClassOf p).1 (ro.sizeClassOf p).2 = false) :
    (HM.reallocSized ro a p k).Avoids ro S rd := by
  unfold HM.reallocSized HM.reallocLarge
  refine ite (fun _ => ite (fun _ => pure _) fun _ => bind unsealMeta fun _ => reallocCopy h1 h2) fun _ =>
    bind unsealMeta fun _ => bind (findRegion _ _) fun _ => ite (fun _ => ?_) fun _ =>
    ite (fun _ => reallocShrink _ _ _ _) fun _ => ite (fun _ => reallocMove _ _ _ _) fun _ => reallocCopy h1 h2
  avoid

end Avoids

/-! ### The conditions on calls -/

/-- The call, made by a thread with arena `a`, allocates or is given blocks of the size classes in `S` only. -/
def Call.Inside (ro : Ro) (S : Nat → Nat → Bool) (a : Nat) : Call → Prop
  | .malloc n => ro.allocIn S a n
  | .calloc n k => ro.allocIn S a (n * k)
  | .realloc p n => (p = 0 ∨ ro.inArea S p = true) ∧ ro.allocIn S a n
  | .posixMemalign al n | .alignedAlloc al n => ro.alignedIn S a al n
  | .valloc n => ro.alignedIn S a PAGE n
  | .pvalloc n => ro.alignedIn S a PAGE (pageAlign n)
  | .free p | .freeSized p _ | .usableSize p | .objectSize p => p = 0 ∨ ro.inArea S p = true
  | .objectSizeFast _ => True
  | .trim | .mallinfo => False

/-- The call, made by a thread with arena `a`, neither allocates nor is given a block of the size classes in `S`. -/
def Call.Outside (ro : Ro) (S : Nat → Nat → Bool) (a : Nat) : Call → Prop
  | .malloc n => ¬ ro.allocIn S a n
  | .calloc n k => ¬ ro.allocIn S a (n * k)
  | .realloc p n => ro.inArea S p = false ∧ ¬ ro.allocIn S a n
  | .posixMemalign al n | .alignedAlloc al n => ¬ ro.alignedIn S a al n
  | .valloc n => ¬ ro.alignedIn S a PAGE n
  | .pvalloc n => ¬ ro.alignedIn S a PAGE (pageAlign n)
  | .free p | .freeSized p _ | .usableSize p | .objectSize p => ro.inArea S p = false
  | .objectSizeFast _ | .mallinfo => True
  | .trim => False

theorem Ro.inArea_out (hro : RoOk ro) {p : Nat} (hp : p < W64) (h : ro.inArea S p = false) (h1 : (ro.sizeClassOf p).1 < ro.g.nArena)
    (h2 : (ro.sizeClassOf p).2 < nClasses ro.g) : S (ro.sizeClassOf p).1 (ro.sizeClassOf p).2 = false := by
  unfold Ro.inArea at h
  cases hs : ro.inSlab p with
  | true => simpa [hs] using h
  | false => have := sizeClassOf_out hro hp hs; omega

theorem Call.avoids (hro : RoOk ro) {rd : Bool} {a : Nat} : ∀ c : Call, c.Ok → c.Outside ro S a → (rd = false → c ≠ .mallinfo) → (c.prog ro a).Avoids ro S rd := by
  have hal : ∀ n, ¬ ro.allocIn S a n → adjustSizeForCanary ro.g n ≤ ro.g.maxSlab → S a (getSizeInfo (adjustSizeForCanary ro.g n)).cls = false := by
    intro n h1 h2
    unfold Ro.allocIn at h1
    rw [not_and, Bool.not_eq_true] at h1
    exact h1 h2
  have hsf : ∀ p e, p < W64 → ro.inArea S p = false → (smallFree ro p e).Avoids ro S rd := fun p e hp h => Avoids.cls (ro.inArea_out hro hp h) fun hx _ _ _ => if_pos hx
  intro c hok h hI
  cases c with
  | malloc n => exact Avoids.bind (Avoids.alloc (hal n h)) fun _ => Avoids.pure _
  | calloc n k =>
    have := Avoids.alloc (rd := rd) (hal (n * k) h)
    unfold Call.prog HM.hCalloc
    refine Avoids.bind (Avoids.ite (fun _ => by avoid) fun _ => Avoids.bind this fun o => ?_) fun _ => Avoids.pure _
    cases o <;> (dsimp only; avoid)
  | realloc p n =>
    obtain ⟨h1, h2⟩ := h
    have hp : p < W64 := hok.1
    have hs : ∀ k, (k ≤ ro.g.maxSlab → S a (getSizeInfo k).cls = false) → (HM.reallocSized ro a p k).Avoids ro S rd := fun k hk => Avoids.reallocSized hk (ro.inArea_out hro hp h1)
    unfold Call.prog HM.hRealloc
    refine Avoids.bind (Avoids.ite (fun _ => Avoids.alloc (hal n h2)) fun _ => Avoids.ite (fun hm => Avoids.ite (fun _ => by avoid) fun h0 => hs _ fun hk => ?_) fun _ => hs _ (hal n h2)) fun _ => Avoids.pure _
    have := (getLargeSizeClass_ok ro.g (adjust_lt hok.2) h0).1
    omega
  | posixMemalign al n => exact Avoids.bind (Avoids.allocAligned h _) fun _ => Avoids.pure _
  | alignedAlloc al n => exact Avoids.bind (Avoids.allocAlignedSimple h) fun _ => Avoids.pure _
  | valloc n => exact Avoids.bind (Avoids.allocAlignedSimple h) fun _ => Avoids.pure _
  | pvalloc n =>
    unfold Call.prog HM.hPvalloc
    exact Avoids.bind (Avoids.ite (fun _ => by avoid) fun _ => Avoids.allocAlignedSimple h) fun _ => Avoids.pure _
  | free p =>
    have := fun e => hsf p e hok h
    unfold Call.prog HM.hFree
    refine Avoids.bind (Avoids.ite (fun _ => Avoids.pure _) fun _ => Avoids.ite (fun _ => Avoids.bind Avoids.unsealMeta fun _ => Avoids.bind (this _) fun _ => Avoids.sealMeta) fun _ => ?_) fun _ => Avoids.pure _
    avoid
  | freeSized p n =>
    have := fun e => hsf p e hok.1 h
    unfold Call.prog HM.hFreeSized
    refine Avoids.bind (Avoids.ite (fun _ => Avoids.pure _) fun _ => Avoids.ite (fun _ => Avoids.bind Avoids.unsealMeta fun _ => Avoids.bind (this _) fun _ => Avoids.sealMeta) fun _ => ?_) fun _ => Avoids.pure _
    avoid
  | usableSize p =>
    have : (smallCheck ro p).Avoids ro S rd := Avoids.cls (ro.inArea_out hro hok h) fun hx _ _ _ => if_pos hx
    unfold Call.prog HM.hUsableSize
    refine Avoids.bind (Avoids.ite (fun _ => Avoids.pure _) fun _ => Avoids.ite (fun _ => Avoids.bind Avoids.unsealMeta fun _ => Avoids.bind this fun _ => ?_) fun _ => ?_) fun _ => Avoids.pure _
    · avoid
    · avoid
  | objectSize p =>
    have : (smallOffset ro p).Avoids ro S rd := Avoids.cls (ro.inArea_out hro hok h) fun hx _ _ _ => if_pos hx
    unfold Call.prog HM.hObjectSize
    refine Avoids.bind (Avoids.ite (fun _ => Avoids.pure _) fun _ => Avoids.ite (fun _ => Avoids.bind Avoids.unsealMeta fun _ => Avoids.bind this fun _ => ?_) fun _ => ?_) fun _ => Avoids.pure _
    · avoid
    · avoid
  | objectSizeFast p =>
    unfold Call.prog HM.hObjectSizeFast
    refine Avoids.bind ?_ fun _ => Avoids.pure _
    avoid
  | trim => exact h.elim
  | mallinfo =>
    cases rd with
    | true => exact Avoids.bind Avoids.hMallinfo fun _ => Avoids.pure _
    | false => exact absurd rfl (hI rfl)

/-! ### Calls that stay in `S` -/

namespace StaysIn

variable {α β : Type} {Q : α → Prop}

theorem pure {a : α} (h : Q a) : (Pure.pure a : Prog α).StaysIn ro S Q := h

theorem bind {R : β → Prop} {P : Prog α} {k : α → Prog β} (h1 : P.StaysIn ro S Q) (h2 : ∀ a, Q a → (k a).StaysIn ro S R) : (P >>= k).StaysIn ro S R := by
  show (P.bind k).StaysIn ro S R
  induction P with
  | ret a => exact h2 a h1
  | act f k' ih => exact ⟨h1.1, fun w ch tl r hi e => ih _ (h1.2 w ch tl r hi e)⟩

theorem mono {R : α → Prop} {P : Prog α} (h : P.StaysIn ro S Q) (hQ : ∀ a, Q a → R a) : P.StaysIn ro S R := by
  induction P with
  | ret a => exact hQ a h
  | act f k ih => exact ⟨h.1, fun w ch tl r hi e => ih _ (h.2 w ch tl r hi e)⟩

theorem ite {p : Prop} [Decidable p] {P P' : Prog α} (h1 : p → P.StaysIn ro S Q) (h2 : ¬ p → P'.StaysIn ro S Q) : (if p then P else P').StaysIn ro S Q := by
  split
  · exact h1 ‹_›
  · exact h2 ‹_›

theorem own {f : Choice → St → Tl → Res (St × Tl × α)} (r : Tl → Tl × α) (h : ∀ ch σ tl, f ch σ tl = .ok (σ, r tl)) : (Prog.one f).StaysIn ro S fun _ => True :=
  ⟨.inr fun σ σ' ha ch tl => ⟨by rw [h, h]; exact ⟨rfl, ha⟩, fun r e x _ => by rw [h] at e; cases e; cases x <;> first | exact ⟨rfl, rfl, rfl, rfl, rfl⟩ | rfl⟩, fun _ _ _ _ _ _ => trivial⟩
theorem setErrno (e : Errno) : (HM.setErrno e).StaysIn ro S fun _ => True := own _ fun _ _ _ => rfl
theorem unsealMeta : HM.unsealMeta.StaysIn ro S fun _ => True := own _ fun _ _ _ => rfl
theorem sealMeta : HM.sealMeta.StaysIn ro S fun _ => True := own _ fun _ _ _ => rfl
theorem die (m : String) : (HM.die m : Prog α).StaysIn ro S Q := ⟨.inr fun _ _ _ _ _ => ⟨rfl, fun r => nomatch r.2.2⟩, fun _ _ _ r _ _ => nomatch r.2.2⟩
theorem cls {f : Choice → St → Errno → Res (St × Errno × α)} {a c : Nat} {fr : Option Nat} (ha : a < ro.g.nArena) (hc : c < nClasses ro.g) (h : S a c = true) :
    (HM.critical ro (.cls a c fr) f).StaysIn ro S fun _ => True := ⟨.inl ⟨_, _, _, rfl, ha, hc, h⟩, fun _ _ _ _ _ _ => trivial⟩

theorem accessible (hro : RoOk ro) {p n : Nat} (hp : ∀ x, inRange p n x → InS ro S (.mem x)) {σ σ' : St} (ha : ∀ x, InS ro S x → σ'.agree σ x) :
    σ'.vm.accessible p n = σ.vm.accessible p n := by
  by_cases hn : n = 0
  · subst hn; simp [Vm.accessible]
  · rw [Bool.eq_iff_iff, Vm.accessible_iff (by omega), Vm.accessible_iff (by omega)]
    refine forall_congr' fun x => imp_congr_right fun hx => ?_
    obtain ⟨a, c, h1, h2, h3, h4⟩ := hp x hx
    have : σ'.vm.prot (x / PAGE) = σ.vm.prot (x / PAGE) :=
      ha (.prot (x / PAGE)) ⟨a, c, h1, h2, h3, classMem_page hro h1 h2 h4 (by rw [Nat.mul_div_cancel _ (by decide : 0 < PAGE)])⟩
    rw [this]

theorem memZero (hro : RoOk ro) {p n : Nat} (hp : ∀ x, inRange p n x → InS ro S (.mem x)) : (HM.memZero p n).StaysIn ro S fun _ => True := by
  refine ⟨.inr fun σ σ' ha ch tl => ?_, fun _ _ _ _ _ _ => trivial⟩
  dsimp only
  rw [accessible hro hp ha]
  split
  · refine ⟨⟨rfl, fun x hx => ?_⟩, fun r e x hx => ?_⟩
    · cases x with
      | mem x =>
        have := ha _ hx
        simp only [St.agree, Vm.fill] at this ⊢
        split
        · rfl
        · exact this
      | _ => exact ha _ hx
    · cases e
      cases x with
      | mem x => exact if_neg fun h => hx (hp x h)
      | regs => exact ⟨rfl, rfl, rfl, rfl, rfl⟩
      | _ => rfl
  · exact ⟨trivial, fun r e => by cases e⟩

theorem memCopy (hro : RoOk ro) {p q n : Nat} (hp : ∀ x, inRange p n x → InS ro S (.mem x)) (hq : ∀ x, inRange q n x → InS ro S (.mem x)) :
    (HM.memCopy p q n).StaysIn ro S fun _ => True := by
  refine ⟨.inr fun σ σ' ha ch tl => ?_, fun _ _ _ _ _ _ => trivial⟩
  dsimp only
  rw [accessible hro hp ha, accessible hro hq ha]
  split
  · refine ⟨⟨rfl, fun x hx => ?_⟩, fun r e x hx => ?_⟩
    · cases x with
      | mem x =>
        have := ha _ hx
        simp only [St.agree, Vm.copy] at this ⊢
        split
        · next h => exact ha (.mem _) (hq _ (by unfold inRange at *; omega))
        · exact this
      | _ => exact ha _ hx
    · cases e
      cases x with
      | mem x => exact if_neg fun h => hx (hp x h)
      | regs => exact ⟨rfl, rfl, rfl, rfl, rfl⟩
      | _ => rfl
  · exact ⟨trivial, fun r e => by cases e⟩

/-- The block that `allocate_small` returns is in the memory of the class. -/
theorem smallAlloc (hro : RoOk ro) {a n : Nat} (ha : a < ro.g.nArena) (hn : n ≤ ro.g.maxSlab) (h : S a (getSizeInfo n).cls = true) :
    (HM.smallAlloc ro a n).StaysIn ro S fun o => ∀ q, o = some q → ∀ x, inRange q n x → InS ro S (.mem x) := by
  have hc : ro.g.clsOf n < nClasses ro.g := clsOf_lt hn
  refine ⟨.inl ⟨_, _, _, rfl, ha, hc, h⟩, fun w ch tl r hi e q hq x hx => ?_⟩
  obtain ⟨P, E, Fl, hinv⟩ := hi.cls a _ ha hc
  have sp := allocateSmall_spec (ch := ch) (e := tl.errno) hro.valid (hro.base ha hc) hc (clsOf_zero hn) hinv (hi.clsVm a _ ha hc)
  have hle : n ≤ ro.g.slotSize (ro.g.clsOf n) := by
    have := le_classSize hn
    unfold Cfg.slotSize
    split <;> omega
  dsimp only at e
  split at e
  · cases e
  · rw [if_neg (by have : (getSizeInfo n).cls < nClasses ro.g := hc; omega)] at e
    simp only [Cfg.clsOf] at sp
    cases hf : allocateSmall ro.g (ro.regionStart a (getSizeInfo n).cls) (getSizeInfo n).cls n ch (w.σ.sc a (getSizeInfo n).cls) w.σ.vm tl.errno with
    | ok y =>
      obtain ⟨o, s', vm', e'⟩ := y
      rw [hf] at e sp
      cases e
      dsimp only at hq
      subst hq
      obtain ⟨_, i, k, v, hp, _, _, _, h3, _⟩ := sp
      exact ⟨a, _, ha, hc, h, slot_classMem hc h3.imax h3.lt (by
        rw [show ro.g.clsOf n = (getSizeInfo n).cls from rfl] at *
        rw [← hp]; unfold inRange at *; omega)⟩
    | _ => rw [hf] at e; cases e

theorem allocate (hro : RoOk ro) {a n : Nat} (ha : a < ro.g.nArena) (hn : n ≤ ro.g.maxSlab) (h : S a (getSizeInfo n).cls = true) :
    (HM.allocate ro a n).StaysIn ro S fun o => ∀ q, o = some q → ∀ x, inRange q n x → InS ro S (.mem x) := by
  unfold HM.allocate
  rw [if_pos hn]
  exact smallAlloc hro ha hn h

theorem alloc (hro : RoOk ro) {a n : Nat} (ha : a < ro.g.nArena) (hn : n ≤ ro.g.maxSlab) (h : S a (getSizeInfo n).cls = true) :
    (HM.alloc ro a n).StaysIn ro S fun o => ∀ q, o = some q → ∀ x, inRange q n x → InS ro S (.mem x) :=
  bind unsealMeta fun _ _ => bind (allocate hro ha hn h) fun _ hq => bind sealMeta fun _ _ => pure hq

theorem allocateAligned (hro : RoOk ro) {a b n d : Nat} (ha : a < ro.g.nArena) (h : ro.alignedSizeIn S a b n) : (HM.allocateAligned ro a b n d).StaysIn ro S fun _ => True := by
  obtain ⟨h1, h2, m, h3, h4, h5⟩ := h
  unfold HM.allocateAligned
  refine ite (fun _ => pure trivial) fun _ => ?_
  rw [if_pos h1]
  refine ite (fun hs => ?_) fun hs => ?_
  · rw [if_pos hs.2] at h3
    split
    · exact die _
    · next i hi =>
      rw [hi] at h3
      cases h3
      refine bind (allocate hro ha h4 h5) fun o _ => ?_
      cases o <;> exact pure trivial
  · rw [if_neg (fun h16 => hs ⟨h2, h16⟩)] at h3
    cases h3
    refine bind (allocate hro ha h4 h5) fun o _ => ?_
    cases o <;> exact pure trivial

theorem allocAligned (hro : RoOk ro) {a b n : Nat} (ha : a < ro.g.nArena) (h : ro.alignedIn S a b n) (d : Nat) : (HM.allocAligned ro a b n d).StaysIn ro S fun _ => True :=
  bind unsealMeta fun _ _ => bind (allocateAligned hro ha h) fun _ _ => bind sealMeta fun _ _ => pure trivial

theorem allocAlignedSimple (hro : RoOk ro) {a b n : Nat} (ha : a < ro.g.nArena) (h : ro.alignedIn S a b n) : (HM.allocAlignedSimple ro a b n).StaysIn ro S fun _ => True := by
  unfold HM.allocAlignedSimple
  refine bind (allocAligned hro ha h _) fun o _ => ?_
  cases o with
  | error e => exact bind (setErrno _) fun _ _ => pure trivial
  | ok p => exact pure trivial

theorem smallFree (hro : RoOk ro) {p : Nat} (h : ro.inArea S p = true) (e : Option Nat) : (HM.smallFree ro p e).StaysIn ro S fun _ => True := by
  obtain ⟨h1, h2⟩ := Bool.and_eq_true_iff.mp h
  exact cls (hro.sizeClassOf_lt h1).1 (hro.sizeClassOf_lt h1).2.1 h2

theorem hRealloc (hro : RoOk ro) {a p n : Nat} (ha : a < ro.g.nArena) (hp : p = 0 ∨ ro.inArea S p = true) (hn : ro.allocIn S a n)
    (hb : p ≠ 0 → ∀ x, inRange p (ro.slabUsableSize p) x → InS ro S (.mem x)) : (HM.hRealloc ro a p n).StaysIn ro S fun _ => True := by
  unfold HM.hRealloc
  refine ite (fun _ => ?_) fun h0 => ?_
  · exact mono (alloc hro ha hn.1 hn.2) fun _ _ => trivial
  · have hin := hp.resolve_left h0
    rw [if_neg (Nat.not_lt.mpr hn.1)]
    unfold HM.reallocSized
    have h1 := (Bool.and_eq_true_iff.mp hin).1
    rw [if_pos h1]
    refine ite (fun _ => pure trivial) fun _ => bind unsealMeta fun _ _ => bind (allocate hro ha hn.1 hn.2) fun o ho => ?_
    cases o with
    | none => exact bind sealMeta fun _ _ => pure trivial
    | some q =>
      have hle : ∀ s t, copySize ro.g s t ≤ s ∧ copySize ro.g s t ≤ t := by
        intro s t
        unfold copySize
        dsimp only
        split <;> omega
      refine bind (memCopy hro (fun x hx => ho q rfl x ?_) fun x hx => hb h0 x ?_) fun _ _ => ?_
      · have := (hle (adjustSizeForCanary ro.g n) (ro.slabUsableSize p)).1
        unfold inRange at *; omega
      · have := (hle (adjustSizeForCanary ro.g n) (ro.slabUsableSize p)).2
        unfold inRange at *; omega
      · have hs : ro.slabUsableSize p ≤ ro.g.maxSlab := classSize_le_maxSlab (hro.sizeClassOf_lt h1).2.1
        dsimp only
        rw [if_pos hs]
        exact bind (smallFree hro hin _) fun _ _ => bind sealMeta fun _ _ => pure trivial

end StaysIn

/-- The bytes of the block that `c` resizes are in `S`. -/
def Call.MovesIn (ro : Ro) (S : Nat → Nat → Bool) : Call → Prop
  | .realloc p _ => p ≠ 0 → ∀ x, inRange p (ro.slabUsableSize p) x → InS ro S (.mem x)
  | _ => True

theorem Call.staysIn (hro : RoOk ro) {a : Nat} (ha : a < ro.g.nArena) : ∀ c : Call, c.Inside ro S a → c.MovesIn ro S → (c.prog ro a).StaysIn ro S fun _ => True := by
  have hal : ∀ n, ro.allocIn S a n → (HM.alloc ro a (adjustSizeForCanary ro.g n)).StaysIn ro S _ := fun n h => StaysIn.alloc hro ha h.1 h.2
  intro c h hm
  cases c with
  | malloc n => exact StaysIn.bind (hal n h) fun _ _ => StaysIn.pure trivial
  | calloc n k =>
    unfold Call.prog HM.hCalloc
    refine StaysIn.bind (Q := fun _ => True) (StaysIn.ite (fun _ => StaysIn.bind (StaysIn.setErrno _) fun _ _ => StaysIn.pure trivial) fun _ => StaysIn.bind (hal _ h) fun o ho => ?_)
      fun _ _ => StaysIn.pure trivial
    cases o with
    | none => exact StaysIn.pure trivial
    | some q =>
      dsimp only
      refine StaysIn.ite (fun _ => StaysIn.bind (StaysIn.memZero hro fun x hx => ho q rfl x ?_) fun _ _ => StaysIn.pure trivial) fun _ => StaysIn.pure trivial
      unfold inRange at *; omega
  | realloc p n => exact StaysIn.bind (StaysIn.hRealloc hro ha h.1 h.2 hm) fun _ _ => StaysIn.pure trivial
  | posixMemalign al n => exact StaysIn.bind (StaysIn.allocAligned hro ha h _) fun _ _ => StaysIn.pure trivial
  | alignedAlloc al n => exact StaysIn.bind (StaysIn.allocAlignedSimple hro ha h) fun _ _ => StaysIn.pure trivial
  | valloc n => exact StaysIn.bind (StaysIn.allocAlignedSimple hro ha h) fun _ _ => StaysIn.pure trivial
  | pvalloc n =>
    unfold Call.prog HM.hPvalloc
    exact StaysIn.bind (Q := fun _ => True) (StaysIn.ite (fun _ => StaysIn.bind (StaysIn.setErrno _) fun _ _ => StaysIn.pure trivial) fun _ => StaysIn.allocAlignedSimple hro ha h)
      fun _ _ => StaysIn.pure trivial
  | free p =>
    unfold Call.prog HM.hFree
    refine StaysIn.bind (Q := fun _ => True) (StaysIn.ite (fun _ => StaysIn.pure trivial) fun hp => ?_) fun _ _ => StaysIn.pure trivial
    obtain ⟨h1, h2⟩ := Bool.and_eq_true_iff.mp (h.resolve_left hp)
    rw [if_pos h1]
    exact StaysIn.bind StaysIn.unsealMeta fun _ _ => StaysIn.bind (StaysIn.cls (hro.sizeClassOf_lt h1).1 (hro.sizeClassOf_lt h1).2.1 h2) fun _ _ => StaysIn.sealMeta
  | freeSized p n =>
    unfold Call.prog HM.hFreeSized
    refine StaysIn.bind (Q := fun _ => True) (StaysIn.ite (fun _ => StaysIn.pure trivial) fun hp => ?_) fun _ _ => StaysIn.pure trivial
    obtain ⟨h1, h2⟩ := Bool.and_eq_true_iff.mp (h.resolve_left hp)
    dsimp only
    rw [if_pos h1]
    exact StaysIn.bind StaysIn.unsealMeta fun _ _ => StaysIn.bind (StaysIn.cls (hro.sizeClassOf_lt h1).1 (hro.sizeClassOf_lt h1).2.1 h2) fun _ _ => StaysIn.sealMeta
  | usableSize p =>
    unfold Call.prog HM.hUsableSize
    refine StaysIn.bind (Q := fun _ => True) (StaysIn.ite (fun _ => StaysIn.pure trivial) fun hp => ?_) fun _ _ => StaysIn.pure trivial
    obtain ⟨h1, h2⟩ := Bool.and_eq_true_iff.mp (h.resolve_left hp)
    rw [if_pos h1]
    exact StaysIn.bind StaysIn.unsealMeta fun _ _ => StaysIn.bind (StaysIn.cls (hro.sizeClassOf_lt h1).1 (hro.sizeClassOf_lt h1).2.1 h2) fun _ _ =>
      StaysIn.bind StaysIn.sealMeta fun _ _ => StaysIn.pure trivial
  | objectSize p =>
    unfold Call.prog HM.hObjectSize
    refine StaysIn.bind (Q := fun _ => True) (StaysIn.ite (fun _ => StaysIn.pure trivial) fun hp => ?_) fun _ _ => StaysIn.pure trivial
    obtain ⟨h1, h2⟩ := Bool.and_eq_true_iff.mp (h.resolve_left hp)
    rw [if_pos h1]
    exact StaysIn.bind StaysIn.unsealMeta fun _ _ => StaysIn.bind (StaysIn.cls (hro.sizeClassOf_lt h1).1 (hro.sizeClassOf_lt h1).2.1 h2) fun _ _ =>
      StaysIn.bind StaysIn.sealMeta fun _ _ => StaysIn.pure trivial
  | objectSizeFast p =>
    unfold Call.prog HM.hObjectSizeFast
    refine StaysIn.bind (Q := fun _ => True) ?_ fun _ _ => StaysIn.pure trivial
    exact StaysIn.ite (fun _ => StaysIn.pure trivial) fun _ => StaysIn.ite (fun _ => StaysIn.pure trivial) fun _ => StaysIn.pure trivial
  | trim => exact h.elim
  | mallinfo => exact h.elim

end HM
