import Verif.Machine
import Verif.Init
import Verif.Seq
/-
What the allocator does depends on the contents of the memory it hands out only through two checks, whose failure aborts
the process: the check for writes to freed memory and the check of canaries. Every action of every program is shown to have
the same effect in two states that differ in the contents of memory only, unless one of these checks fails.
-/
namespace HM

/-- The two messages with which the allocator aborts when it finds memory overwritten (h_malloc.c:478, 535). -/
def Corrupt (m : String) : Prop := m = "detected write after free" ∨ m = "canary corrupted"

instance (m : String) : Decidable (Corrupt m) := by unfold Corrupt; infer_instance

/-! ### Memories changed in the same way -/

/-- A change of memory: every byte is a copy of some byte, or a constant. -/
abbrev Subst := Nat → Nat ⊕ BitVec 8

/-- The memory after a change. -/
def Subst.at (φ : Subst) (mem : Nat → BitVec 8) (x : Nat) : BitVec 8 :=
  match φ x with
  | .inl y => mem y
  | .inr v => v

/-- The members of the family `v` have the same mappings, and are the result of the same change of the members of `u`. -/
structure Alike {ι : Type} (u v : ι → Vm) : Prop where
  prot : ∃ pr, ∀ i, (v i).prot = pr
  mem : ∃ φ : Subst, ∀ i x, (v i).mem x = φ.at (u i).mem x

section
variable {ι : Type} {u v w : ι → Vm}

theorem Alike.refl {pr : Nat → Prot} (h : ∀ i, (v i).prot = pr) : Alike v v := ⟨⟨pr, h⟩, Sum.inl, fun _ _ => rfl⟩

theorem Alike.step (A : Alike u v) (hp : ∃ pr, ∀ i, (w i).prot = pr) (φ : Subst) (h : ∀ i x, (w i).mem x = φ.at (v i).mem x) : Alike u w := by
  obtain ⟨_, ψ, h1⟩ := A
  refine ⟨hp, fun x => match φ x with | .inl y => ψ y | .inr b => .inr b, fun i x => ?_⟩
  rw [h i x]
  unfold Subst.at
  cases hx : φ x with
  | inl y => simp only [hx]; exact h1 i y
  | inr b => simp only [hx]

end

/-! ### Outcomes -/

/-- All outcomes are the same, up to the predicate `R` on the family of results, unless one of them reports overwritten
memory. -/
inductive Res.Blind {ι α : Type} (R : (ι → α) → Prop) : (ι → Res α) → Prop
  | ok (a : ι → α) (h : R a) : Res.Blind R fun i => .ok (a i)
  | fatal (m : String) : Res.Blind R fun _ => .fatal m
  | segv : Res.Blind R fun _ => .segv
  | ub (m : String) : Res.Blind R fun _ => .ub m
  | hang : Res.Blind R fun _ => .hang
  | corrupt {r : ι → Res α} (i : ι) {m : String} (hm : Corrupt m) (h : r i = .fatal m) : Res.Blind R r

section
variable {ι α β : Type} {R : (ι → α) → Prop} {S : (ι → β) → Prop}

theorem Res.Blind.bind {r : ι → Res α} {f : ι → α → Res β} (h : Res.Blind R r) (hf : ∀ a, R a → Res.Blind S fun i => f i (a i)) :
    Res.Blind S fun i => r i >>= f i := by
  cases h with
  | ok a h => exact hf a h
  | fatal m => exact .fatal m
  | segv => exact .segv
  | ub m => exact .ub m
  | hang => exact .hang
  | corrupt i hm h => exact .corrupt i hm (by rw [h]; rfl)

theorem Res.Blind.same {r : Res α} {f : ι → α → Res β} (hf : ∀ a, Res.Blind S fun i => f i a) : Res.Blind S fun i => r >>= f i := by
  cases r with
  | ok a => exact hf a
  | fatal m => exact .fatal m
  | segv => exact .segv
  | ub m => exact .ub m
  | hang => exact .hang

end

/-- The outcome is not a report of overwritten memory. -/
def Res.Clean {α : Type} (r : Res α) : Prop := ∀ m, r = .fatal m → ¬ Corrupt m

theorem Res.Clean.bind {α β : Type} {r : Res α} {f : α → Res β} (h : r.Clean) (hf : ∀ a, (f a).Clean) : (r >>= f).Clean := by
  cases r with
  | ok a => exact hf a
  | fatal m => exact fun _ e => (by cases e; exact h m rfl)
  | segv => exact fun _ e => (by cases e)
  | ub m => exact fun _ e => (by cases e)
  | hang => exact fun _ e => (by cases e)

theorem Res.Clean.ok {α : Type} (a : α) : (Res.ok a).Clean := fun _ e => by cases e
theorem Res.Clean.segv {α : Type} : (Res.segv : Res α).Clean := fun _ e => by cases e
theorem Res.Clean.hang {α : Type} : (Res.hang : Res α).Clean := fun _ e => by cases e
theorem Res.Clean.ub {α : Type} (m : String) : (Res.ub m : Res α).Clean := fun _ e => by cases e
theorem Res.Clean.fatal {α : Type} {m : String} (h : ¬ Corrupt m) : (Res.fatal m : Res α).Clean := fun _ e => by cases e; exact h

/-- Ends of functions. -/
macro "clean" : tactic => `(tactic| first
  | exact Res.Clean.ok _ | exact Res.Clean.segv | exact Res.Clean.hang | exact Res.Clean.ub _ | exact Res.Clean.fatal (by decide))

/-! ### memory.c -/

section
variable {ι : Type} {u v : ι → Vm}

/-- The results of a system call. -/
def RB (u : ι → Vm) {α : Type} (a : ι → Vm × α) : Prop := ∃ x v, a = (fun i => (v i, x)) ∧ Alike u v

/-- Memory with given mappings. -/
def protVm (pr : Nat → Prot) : Vm := ⟨pr, fun _ => 0#8⟩

theorem Alike.acc (A : Alike u v) : ∃ f : Nat → Nat → Bool, ∀ i a n, (v i).accessible a n = f a n := by
  obtain ⟨⟨pr, h⟩, _⟩ := A
  exact ⟨(protVm pr).accessible, fun i a n => by unfold Vm.accessible; rw [h i]; rfl⟩

theorem Alike.pages (A : Alike u v) (f : Prot → Bool) : ∃ F : Nat → Nat → Bool, ∀ i a n, Vm.allPages a n (fun pg => f ((v i).prot pg)) = F a n := by
  obtain ⟨⟨pr, h⟩, _⟩ := A
  exact ⟨fun a n => Vm.allPages a n fun pg => f (pr pg), fun i a n => by rw [h i]⟩

theorem Alike.setProt (A : Alike u v) (a n : Nat) (p : Prot) : Alike u fun i => (v i).setProt a n p := by
  obtain ⟨pr, h⟩ := A.prot
  exact A.step ⟨_, fun i => by unfold Vm.setProt; rw [h i]⟩ Sum.inl fun _ _ => rfl

theorem Alike.zeroPages (A : Alike u v) (a n : Nat) : Alike u fun i => (v i).zeroPages a n := by
  refine A.step A.prot (fun x => if inPages a n (x / PAGE) then .inr 0#8 else .inl x) fun i x => ?_
  unfold Subst.at Vm.zeroPages
  (try dsimp only)
  by_cases h : inPages a n (x / PAGE) <;> simp only [h, if_true, if_false]

theorem Alike.put (A : Alike u v) (a n : Nat) (f : Nat → BitVec 8) :
    Alike u fun i => { v i with mem := fun x => if inRange a n x then f x else (v i).mem x } := by
  refine A.step A.prot (fun x => if inRange a n x then .inr (f x) else .inl x) fun i x => ?_
  unfold Subst.at
  (try dsimp only)
  by_cases h : inRange a n x <;> simp only [h, if_true, if_false]

theorem Alike.fill (A : Alike u v) (a n : Nat) (b : BitVec 8) : Alike u fun i => (v i).fill a n b := A.put a n fun _ => b

theorem Alike.copy (A : Alike u v) (d s n : Nat) : Alike u fun i => (v i).copy d s n := by
  refine A.step A.prot (fun x => if inRange d n x then .inl (s + (x - d)) else .inl x) fun i x => ?_
  unfold Subst.at Vm.copy
  (try dsimp only)
  by_cases h : inRange d n x <;> simp only [h, if_true, if_false]

theorem Alike.memoryMap (A : Alike u v) (r : SysRes) (a n : Nat) : Res.Blind (RB u) fun i => memoryMap (v i) r a n := by
  obtain ⟨F, hF⟩ := A.pages (· == .unmapped)
  unfold HM.memoryMap
  cases r with
  | ok =>
    by_cases h0 : n = 0
    · simp only [h0, if_true]
      exact .fatal _
    · simp only [h0, if_false, hF]
      by_cases h1 : a % PAGE = 0 ∧ PAGE ≤ a ∧ a + n ≤ ADDR_END ∧ F a n = true
      · simp only [if_pos h1]
        exact .ok _ ⟨_, _, rfl, (A.setProt _ _ _).zeroPages _ _⟩
      · simp only [if_neg h1]
        exact .ok _ ⟨_, _, rfl, A⟩
  | enomem => exact .ok _ ⟨_, _, rfl, A⟩
  | other => exact .fatal _

theorem Alike.memoryMapFixed (A : Alike u v) (r : SysRes) (a n : Nat) : Res.Blind (RB u) fun i => memoryMapFixed (v i) r a n := by
  unfold HM.memoryMapFixed
  by_cases h : a % PAGE ≠ 0 ∨ n = 0
  · simp only [if_pos h]
    exact .fatal _
  · simp only [if_neg h]
    cases r with
    | ok => exact .ok _ ⟨_, _, rfl, (A.setProt _ _ _).zeroPages _ _⟩
    | enomem => exact .ok _ ⟨_, _, rfl, A⟩
    | other => exact .fatal _

theorem Alike.memoryUnmap (A : Alike u v) (r : SysRes) (a n : Nat) : Res.Blind (RB u) fun i => memoryUnmap (v i) r a n := by
  unfold HM.memoryUnmap
  by_cases h : a % PAGE ≠ 0 ∨ n = 0
  · simp only [if_pos h]
    exact .fatal _
  · simp only [if_neg h]
    cases r with
    | ok => exact .ok _ ⟨_, _, rfl, A.setProt _ _ _⟩
    | enomem => exact .ok _ ⟨_, _, rfl, A⟩
    | other => exact .fatal _

theorem Alike.memoryProtectRw (A : Alike u v) (r : SysRes) (a n : Nat) : Res.Blind (RB u) fun i => memoryProtectRw (v i) r a n := by
  obtain ⟨F, hF⟩ := A.pages (· != .unmapped)
  unfold HM.memoryProtectRw
  by_cases h : a % PAGE ≠ 0
  · simp only [if_pos h]
    exact .fatal _
  · simp only [if_neg h]
    cases r with
    | ok =>
      simp only [hF]
      cases F a n
      · exact .ok _ ⟨_, _, rfl, A⟩
      · exact .ok _ ⟨_, _, rfl, A.setProt _ _ _⟩
    | enomem => exact .ok _ ⟨_, _, rfl, A⟩
    | other => exact .fatal _

theorem Alike.memoryRemapFixed (A : Alike u v) (r : SysRes) (a n b k : Nat) : Res.Blind (RB u) fun i => memoryRemapFixed (v i) r a n b k := by
  obtain ⟨pr, hpr⟩ := A.prot
  unfold HM.memoryRemapFixed
  by_cases h : b % PAGE ≠ 0 ∨ a % PAGE ≠ 0 ∨ k = 0 ∨ n = 0
  · simp only [if_pos h]
    exact .fatal _
  · simp only [if_neg h]
    cases r with
    | ok =>
      refine .ok _ ⟨_, _, rfl, A.step ⟨_, fun i => by dsimp only; rw [hpr i]⟩
        (fun x => if inPages b k (x / PAGE) then (if inPages a n ((a + (x - b)) / PAGE) then .inl (a + (x - b)) else .inr 0#8) else .inl x) fun i x => ?_⟩
      unfold Subst.at
      (try dsimp only)
      by_cases h : inPages b k (x / PAGE) <;> by_cases h2 : inPages a n ((a + (x - b)) / PAGE) <;> simp only [h, h2, if_true, if_false]
    | enomem => exact .ok _ ⟨_, _, rfl, A⟩
    | other => exact .fatal _

theorem Alike.memoryPurge (A : Alike u v) (r : SysRes) (a n : Nat) : Res.Blind (Alike u) fun i => memoryPurge (v i) r a n := by
  unfold HM.memoryPurge
  by_cases h : a % PAGE ≠ 0
  · simp only [if_pos h]
    exact .fatal _
  · simp only [if_neg h]
    cases r with
    | ok => exact .ok _ (A.zeroPages _ _)
    | enomem => exact .ok _ A
    | other => exact .fatal _

end

theorem memoryMap_clean (v : Vm) (r : SysRes) (a n : Nat) : (memoryMap v r a n).Clean := by
  unfold HM.memoryMap; cases r <;> (repeat' split) <;> clean
theorem memoryMapFixed_clean (v : Vm) (r : SysRes) (a n : Nat) : (memoryMapFixed v r a n).Clean := by
  unfold HM.memoryMapFixed; cases r <;> (repeat' split) <;> clean
theorem memoryUnmap_clean (v : Vm) (r : SysRes) (a n : Nat) : (memoryUnmap v r a n).Clean := by
  unfold HM.memoryUnmap; cases r <;> (repeat' split) <;> clean
theorem memoryProtectRw_clean (v : Vm) (r : SysRes) (a n : Nat) : (memoryProtectRw v r a n).Clean := by
  unfold HM.memoryProtectRw; cases r <;> (repeat' split) <;> clean
theorem memoryRemapFixed_clean (v : Vm) (r : SysRes) (a n b k : Nat) : (memoryRemapFixed v r a n b k).Clean := by
  unfold HM.memoryRemapFixed; cases r <;> (repeat' split) <;> clean
theorem memoryPurge_clean (v : Vm) (r : SysRes) (a n : Nat) : (memoryPurge v r a n).Clean := by
  unfold HM.memoryPurge; cases r <;> (repeat' split) <;> clean

/-! ### Slabs -/

section
variable {ι : Type} {u v : ι → Vm} {g : Cfg} {ch : Choice} {c : SC}

theorem Alike.protectSlab (A : Alike u v) (b : Bool) (r : SysRes) (a n : Nat) : Res.Blind (RB u) fun i => protectSlab b r a n (v i) := by
  unfold HM.protectSlab
  cases b
  · exact .ok _ ⟨_, _, rfl, A⟩
  · exact A.memoryProtectRw r a n

theorem Alike.writeAfterFreeCheck (A : Alike u v) (tag : Bool) (p n : Nat) : Res.Blind (fun _ => True) fun i => writeAfterFreeCheck g tag p n (v i) := by
  obtain ⟨F, hF⟩ := A.acc
  unfold HM.writeAfterFreeCheck
  simp only [hF]
  cases !g.writeAfterFreeCheck || tag
  · cases F p n
    · exact .segv
    · simp only [Bool.false_eq_true, Bool.not_true, if_false]
      by_cases h : ∀ i, decide (∀ k : Nat, k < (n + 7) / 8 → (v i).wordZero (p + k * 8) = true) = true
      · simp only [h, if_true]
        exact .ok _ trivial
      · obtain ⟨i, hi⟩ := not_forall.mp h
        exact .corrupt i (Or.inl rfl) (if_neg hi)
  · exact .ok _ trivial

theorem Alike.checkCanary (A : Alike u v) (tag : Bool) (k : BitVec 64) (p n : Nat) : Res.Blind (fun _ => True) fun i => checkCanary g tag k p n (v i) := by
  obtain ⟨F, hF⟩ := A.acc
  unfold HM.checkCanary
  simp only [hF]
  cases !g.slabCanary || tag
  · cases F (p + n - 8) 8
    · exact .segv
    · simp only [Bool.false_eq_true, Bool.not_true, if_false]
      by_cases h : ∀ i, (g.mte && (v i).wordZero (p + n - 8)) = true ∨ decide (∀ j : Nat, j < 8 → (v i).mem (p + n - 8 + j) = byteOf k j) = true
      · have : ∀ i, (if (g.mte && (v i).wordZero (p + n - 8)) = true then (Res.ok () : Res Unit)
            else if decide (∀ j : Nat, j < 8 → (v i).mem (p + n - 8 + j) = byteOf k j) = true then .ok () else .fatal "canary corrupted") = .ok () := by
          intro i
          rcases h i with h | h
          · rw [if_pos h]
          · rw [if_pos h]; split <;> rfl
        simp only [this]
        exact .ok _ trivial
      · obtain ⟨i, hi⟩ := not_forall.mp h
        rw [not_or] at hi
        exact .corrupt i (Or.inr rfl) (by rw [if_neg hi.1, if_neg hi.2])
  · exact .ok _ trivial

theorem Alike.setCanary (A : Alike u v) (tag : Bool) (k : BitVec 64) (p n : Nat) : Res.Blind (Alike u) fun i => setCanary g tag k p n (v i) := by
  obtain ⟨F, hF⟩ := A.acc
  unfold HM.setCanary
  simp only [hF]
  cases !g.slabCanary || tag
  · cases F (p + n - 8) 8
    · exact .segv
    · exact .ok _ (A.put _ _ fun x => byteOf k (x - (p + n - 8)))
  · exact .ok _ A

theorem Alike.clearMem (A : Alike u v) (p n : Nat) : Res.Blind (Alike u) fun i => clearMem p n (v i) := by
  obtain ⟨F, hF⟩ := A.acc
  unfold HM.clearMem
  simp only [hF]
  cases F p n
  · exact .segv
  · exact .ok _ (A.fill _ _ _)

theorem Alike.prepareSlot (A : Alike u v) (tag check : Bool) (q n p : Nat) (k : BitVec 64) : Res.Blind (Alike u) fun i => prepareSlot g tag check q n p k (v i) := by
  unfold HM.prepareSlot
  by_cases hq : q = 0
  · simp only [if_pos hq]
    exact .ok _ A
  · simp only [if_neg hq]
    have h : Res.Blind (Alike u) fun i => (do let vm ← HM.setCanary g tag k p n (v i); if tag then HM.clearMem p n vm else .ok vm) := by
      refine (A.setCanary tag k p n).bind fun w B => ?_
      cases tag
      · exact .ok _ B
      · exact B.clearMem _ _
    cases check
    · exact h
    · exact (A.writeAfterFreeCheck tag p _).bind fun _ _ => h

theorem Alike.scrubSlot (A : Alike u v) (tag : Bool) (cls : Nat) (k : BitVec 64) (p : Nat) : Res.Blind (Alike u) fun i => scrubSlot g tag cls k p (v i) := by
  obtain ⟨F, hF⟩ := A.acc
  unfold HM.scrubSlot
  by_cases hq : g.classSize cls = 0
  · simp only [if_pos hq]
    exact .ok _ A
  · simp only [if_neg hq]
    refine (A.checkCanary tag k p _).bind fun _ _ => ?_
    cases tag
    · simp only [Bool.false_eq_true, if_false]
      cases g.zeroOnFree
      · exact .ok _ A
      · simp only [if_true, hF]
        cases F p (g.slotSize cls - g.canarySize)
        · exact .segv
        · exact .ok _ (A.fill _ _ _)
    · exact A.clearMem _ _

/-- The results of the functions that allocate, and of `trimClass`. -/
def R4 (u : ι → Vm) {α : Type} (a : ι → α × SC × Vm × Errno) : Prop := ∃ p c v e, a = (fun i => (p, c, v i, e)) ∧ Alike u v

/-- The results of the functions that free. -/
def R3 (u : ι → Vm) (a : ι → SC × Vm × Errno) : Prop := ∃ c v e, a = (fun i => (c, v i, e)) ∧ Alike u v

variable {base cls q : Nat} {e : Errno}

theorem Alike.allocMetadata (A : Alike u v) (b : Bool) : Res.Blind (R4 u) fun i => allocMetadata g base cls b ch c (v i) e := by
  unfold HM.allocMetadata
  refine Res.Blind.same fun o => ?_
  cases o with
  | none => exact .ok _ ⟨_, _, _, _, rfl, A⟩
  | some c =>
    refine (A.protectSlab b _ _ _).bind ?_
    rintro _ ⟨f, w, rfl, B⟩
    cases f
    · exact .ok _ ⟨_, _, _, _, rfl, B⟩
    · exact .ok _ ⟨_, _, _, _, rfl, B⟩

theorem Alike.allocFromEmpty (A : Alike u v) (m : Nat) : Res.Blind (R4 u) fun i => allocFromEmpty g base cls q ch c (v i) e m := by
  unfold HM.allocFromEmpty
  refine Res.Blind.same fun x => ?_
  exact (A.prepareSlot _ _ _ _ _ _).bind fun w B => .ok _ ⟨_, _, _, _, rfl, B⟩

theorem Alike.allocFromPartial (A : Alike u v) (m : Nat) : Res.Blind (R4 u) fun i => allocFromPartial g base cls q ch c (v i) e m := by
  unfold HM.allocFromPartial
  refine Res.Blind.same fun x => ?_
  exact (A.prepareSlot _ _ _ _ _ _).bind fun w B => .ok _ ⟨_, _, _, _, rfl, B⟩

theorem Alike.allocFromFree (A : Alike u v) (m : Nat) : Res.Blind (R4 u) fun i => allocFromFree g base cls q ch c (v i) e m := by
  unfold HM.allocFromFree
  refine (A.protectSlab _ _ _ _).bind ?_
  rintro _ ⟨f, w, rfl, B⟩
  cases f
  · refine Res.Blind.same fun x => ?_
    exact (B.prepareSlot _ _ _ _ _ _).bind fun w B => .ok _ ⟨_, _, _, _, rfl, B⟩
  · exact .ok _ ⟨_, _, _, _, rfl, B⟩

theorem Alike.allocFromNew (A : Alike u v) : Res.Blind (R4 u) fun i => allocFromNew g base cls q ch c (v i) e := by
  unfold HM.allocFromNew
  refine (A.allocMetadata _).bind ?_
  rintro _ ⟨o, c1, w, e1, rfl, B⟩
  cases o with
  | none => exact .ok _ ⟨_, _, _, _, rfl, B⟩
  | some m =>
    refine Res.Blind.same fun x => ?_
    exact (B.prepareSlot _ _ _ _ _ _).bind fun w B => .ok _ ⟨_, _, _, _, rfl, B⟩

theorem Alike.allocateSmall (A : Alike u v) : Res.Blind (R4 u) fun i => allocateSmall g base cls q ch c (v i) e := by
  unfold HM.allocateSmall
  cases c.partialHead with
  | some m => exact A.allocFromPartial _
  | none =>
    cases c.emptyHead with
    | some m => exact A.allocFromEmpty _
    | none =>
      cases c.freeHead with
      | some m => exact A.allocFromFree _
      | none => exact A.allocFromNew

theorem Alike.retireSlab (A : Alike u v) (m : Nat) : Res.Blind (R3 u) fun i => retireSlab g base cls ch c (v i) e m := by
  unfold HM.retireSlab
  (try dsimp only)
  by_cases h : add64 (c.unlinkPartial m).emptyTotal (g.slabSize cls) > g.maxEmptySlabsTotal
  · simp only [if_pos h]
    refine (A.memoryMapFixed _ _ _).bind ?_
    rintro _ ⟨f, w, rfl, B⟩
    cases f
    · exact Res.Blind.same fun x => .ok _ ⟨_, _, _, rfl, B⟩
    · exact (B.memoryPurge _ _ _).bind fun w C => .ok _ ⟨_, _, _, rfl, C⟩
  · simp only [if_neg h]
    exact .ok _ ⟨_, _, _, rfl, A⟩

theorem Alike.releaseSlot (A : Alike u v) (m s : Nat) : Res.Blind (R3 u) fun i => releaseSlot g base cls ch c (v i) e m s := by
  unfold HM.releaseSlot
  (try dsimp only)
  cases ((c.linkPartial (g.slots cls) m).clearUsed m s).isFreeSlab m
  · exact .ok _ ⟨_, _, _, rfl, A⟩
  · exact A.retireSlab _

theorem Alike.deallocateSmall (A : Alike u v) (p : Nat) (x : Option Nat) : Res.Blind (R3 u) fun i => deallocateSmall g base cls p x ch c (v i) e := by
  unfold HM.deallocateSmall
  cases x.any fun y => decide (y ≠ g.classSize cls)
  · refine Res.Blind.same fun ⟨m, s⟩ => ?_
    refine (A.scrubSlot _ _ _ _).bind fun w B => ?_
    refine Res.Blind.same fun ⟨c1, o⟩ => ?_
    cases o with
    | none => exact .ok _ ⟨_, _, _, rfl, B⟩
    | some y => exact B.releaseSlot _ _
  · exact .fatal _

theorem Alike.memoryCorruptionCheckSmall (A : Alike u v) (tag : Bool) (p : Nat) :
    Res.Blind (fun _ => True) fun i => memoryCorruptionCheckSmall g tag base cls p c (v i) := by
  unfold HM.memoryCorruptionCheckSmall
  refine Res.Blind.same fun ⟨m, s⟩ => ?_
  have h : Res.Blind (fun _ => True) fun i => checkSlotCanary g tag cls (c.slabs m).canary p (v i) := by
    unfold checkSlotCanary
    by_cases h : g.classSize cls ≠ 0
    · simp only [if_pos h]
      exact A.checkCanary _ _ _ _
    · simp only [if_neg h]
      exact .ok _ trivial
  refine h.bind fun _ _ => ?_
  cases g.slabQuarantine && (c.slabs m).qbitmap.get s
  · exact .ok _ trivial
  · exact .fatal _

/-- The results of `trimLoop`. -/
def R6 (u : ι → Vm) (a : ι → Nat × Option Nat × Bool × SC × Vm × Errno) : Prop := ∃ k it t c v e, a = (fun i => (k, it, t, c, v i, e)) ∧ Alike u v

theorem Alike.trimLoop : ∀ {n k : Nat} {it : Option Nat} {t : Bool} {c : SC} {v : ι → Vm} {e : Errno} (_ : Alike u v),
    Res.Blind (R6 u) fun i => trimLoop g base cls ch n k it t c (v i) e := by
  intro n
  induction n with
  | zero => intro k it t c v e A; unfold HM.trimLoop; exact .hang
  | succ n ih =>
    intro k it t c v e A
    cases it with
    | none => unfold HM.trimLoop; exact .ok _ ⟨_, _, _, _, _, _, rfl, A⟩
    | some j =>
      unfold HM.trimLoop
      refine (A.memoryMapFixed _ _ _).bind ?_
      rintro _ ⟨f, w, rfl, B⟩
      cases f
      · exact Res.Blind.same fun x => ih B
      · exact .ok _ ⟨_, _, _, _, _, _, rfl, B⟩

/-- The results of `trimPurge`. -/
def R2 (u : ι → Vm) (a : ι → Vm × Errno) : Prop := ∃ v e, a = (fun i => (v i, e)) ∧ Alike u v

theorem Alike.purgeEntries {arr : Nat → Nat} {size k0 : Nat} : ∀ {n j : Nat} {v : ι → Vm} {e : Errno} (_ : Alike u v),
    Res.Blind (R2 u) fun i => purgeEntries arr size ch k0 n j (v i) e := by
  intro n
  induction n with
  | zero => intro j v e A; exact .ok _ ⟨_, _, rfl, A⟩
  | succ n ih =>
    intro j v e A
    unfold HM.purgeEntries
    by_cases h : arr j = 0
    · simp only [if_pos h]
      exact ih A
    · simp only [if_neg h]
      exact (A.memoryPurge _ _ _).bind fun w B => ih B

theorem Alike.trimPurge (A : Alike u v) (k0 : Nat) : Res.Blind (R2 u) fun i => trimPurge g cls ch k0 c (v i) e := by
  unfold HM.trimPurge
  cases g.slabQuarantine && g.extended && decide (20480 ≤ g.classSize cls)
  · exact .ok _ ⟨_, _, rfl, A⟩
  · simp only [if_true]
    by_cases h1 : quarantineCap g g.slabQRandom < shl64 g.slabQRandom (quarantineShift g (g.classSize cls)) ∨
        quarantineCap g g.slabQQueue < shl64 g.slabQQueue (quarantineShift g (g.classSize cls))
    · simp only [if_pos h1]
      exact .ub _
    · simp only [if_neg h1]
      have h : ∀ a : ι → Vm × Errno, R2 u a → Res.Blind (R2 u) fun i =>
          if g.slabQQueue = 0 then .ok ((a i).1, (a i).2) else HM.purgeEntries c.qqueue (g.classSize cls) ch
            (k0 + shl64 g.slabQRandom (quarantineShift g (g.classSize cls))) (shl64 g.slabQQueue (quarantineShift g (g.classSize cls))) 0 (a i).1 (a i).2 := by
        rintro _ ⟨w, e1, rfl, B⟩
        by_cases h2 : g.slabQQueue = 0
        · simp only [if_pos h2]
          exact .ok _ ⟨_, _, rfl, B⟩
        · simp only [if_neg h2]
          exact Alike.purgeEntries B
      by_cases h0 : g.slabQRandom = 0
      · simp only [if_pos h0]
        exact h (fun i => (v i, e)) ⟨_, _, rfl, A⟩
      · simp only [if_neg h0]
        exact A.purgeEntries.bind h
  
theorem Alike.trimClass (A : Alike u v) : Res.Blind (R4 u) fun i => trimClass g base cls ch c (v i) e := by
  unfold HM.trimClass
  refine A.trimLoop.bind ?_
  rintro _ ⟨k, it, t, c1, w, e1, rfl, B⟩
  refine (Alike.trimPurge B _).bind ?_
  rintro _ ⟨w2, e2, rfl, C⟩
  exact .ok _ ⟨_, _, _, _, rfl, C⟩

/-! ### Where overwritten memory is reported -/

theorem protectSlab_clean (b : Bool) (r : SysRes) (a n : Nat) (v : Vm) : (protectSlab b r a n v).Clean := by
  unfold protectSlab; split
  · exact memoryProtectRw_clean _ _ _ _
  · clean

theorem takeSlot_clean (g : Cfg) (n : Nat) (ch : Choice) (c : SC) (m : Nat) : (takeSlot g n ch c m).Clean := by
  unfold takeSlot; (repeat' split) <;> clean

theorem growMetadata_clean (g : Cfg) (cls : Nat) (ch : Choice) (c : SC) : (growMetadata g cls ch c).Clean := by
  unfold growMetadata; (repeat' split) <;> clean

theorem setCanary_clean (g : Cfg) (tag : Bool) (k : BitVec 64) (p n : Nat) (v : Vm) : (setCanary g tag k p n v).Clean := by
  unfold setCanary; dsimp only; (repeat' split) <;> clean

theorem clearMem_clean (p n : Nat) (v : Vm) : (clearMem p n v).Clean := by
  unfold clearMem; split <;> clean

theorem prepareSlot_clean (g : Cfg) (tag : Bool) (q n p : Nat) (k : BitVec 64) (v : Vm) : (prepareSlot g tag false q n p k v).Clean := by
  unfold prepareSlot
  split
  · clean
  · simp only [Bool.false_eq_true, if_false]
    refine (setCanary_clean _ _ _ _ _ _).bind fun _ => ?_
    split
    · exact clearMem_clean _ _ _
    · clean

theorem allocMetadata_clean (b : Bool) (v : Vm) : (allocMetadata g base cls b ch c v e).Clean := by
  unfold allocMetadata
  refine (growMetadata_clean _ _ _ _).bind fun o => ?_
  cases o with
  | none => clean
  | some c => exact (protectSlab_clean _ _ _ _ _).bind fun ⟨w, f⟩ => by cases f <;> exact Res.Clean.ok _

theorem allocFromFree_clean (v : Vm) (m : Nat) : (allocFromFree g base cls q ch c v e m).Clean := by
  unfold allocFromFree
  refine (protectSlab_clean _ _ _ _ _).bind fun ⟨w, f⟩ => ?_
  cases f
  · exact (takeSlot_clean _ _ _ _ _).bind fun x => (prepareSlot_clean _ _ _ _ _ _ _).bind fun _ => Res.Clean.ok _
  · exact Res.Clean.ok _

theorem allocFromNew_clean (v : Vm) : (allocFromNew g base cls q ch c v e).Clean := by
  unfold allocFromNew
  refine (allocMetadata_clean _ _).bind fun ⟨o, c1, w, e1⟩ => ?_
  cases o with
  | none => exact Res.Clean.ok _
  | some m => exact (takeSlot_clean _ _ _ _ _).bind fun x => (prepareSlot_clean _ _ _ _ _ _ _).bind fun _ => Res.Clean.ok _

theorem getMetadata_clean (p : Nat) : (getMetadata g base cls p c).Clean := by
  unfold getMetadata; dsimp only; split <;> clean

theorem findSlot_clean (p : Nat) {m1 m2 : String} (h1 : ¬ Corrupt m1) (h2 : ¬ Corrupt m2) : (findSlot g base cls p c m1 m2).Clean := by
  unfold findSlot
  refine (getMetadata_clean _).bind fun m => ?_
  (try dsimp only)
  split
  · exact Res.Clean.fatal h1
  · split
    · clean
    · split
      · exact Res.Clean.fatal h2
      · clean

theorem pushRandom_clean (n p : Nat) : (pushRandom g n ch c p).Clean := by
  unfold pushRandom; dsimp only; (repeat' split) <;> clean
theorem pushQueue_clean (n p : Nat) : (pushQueue g n c p).Clean := by
  unfold pushQueue; dsimp only; (repeat' split) <;> clean
theorem leaveQuarantine_clean (p : Nat) : (leaveQuarantine g base cls c p).Clean := by
  unfold leaveQuarantine
  refine (getMetadata_clean _).bind fun m => ?_
  (try dsimp only)
  split <;> clean

theorem quarantineSlot_clean (p m s : Nat) : (quarantineSlot g base cls ch c p m s).Clean := by
  unfold quarantineSlot
  split
  · clean
  · split
    · clean
    · refine (pushRandom_clean _ _).bind fun ⟨c1, p1⟩ => ?_
      (try dsimp only)
      split
      · clean
      · refine (pushQueue_clean _ _).bind fun ⟨c2, p2⟩ => ?_
        (try dsimp only)
        split
        · clean
        · exact (leaveQuarantine_clean _).bind fun x => Res.Clean.ok _

theorem enqueueFreeSlab_clean (d m : Nat) : (enqueueFreeSlab g d c m).Clean := by
  unfold enqueueFreeSlab; dsimp only; (repeat' split) <;> clean

theorem releaseSlot_clean (v : Vm) (m s : Nat) : (releaseSlot g base cls ch c v e m s).Clean := by
  unfold releaseSlot
  (try dsimp only)
  split
  · unfold retireSlab
    (try dsimp only)
    split
    · refine (memoryMapFixed_clean _ _ _ _).bind fun ⟨w, f⟩ => ?_
      cases f
      · exact (enqueueFreeSlab_clean _ _).bind fun _ => Res.Clean.ok _
      · exact (memoryPurge_clean _ _ _ _).bind fun _ => Res.Clean.ok _
    · clean
  · clean

theorem trimLoop_clean : ∀ {n k : Nat} {it : Option Nat} {t : Bool} {c : SC} {v : Vm} {e : Errno}, (trimLoop g base cls ch n k it t c v e).Clean := by
  intro n
  induction n with
  | zero => intro k it t c v e; unfold trimLoop; clean
  | succ n ih =>
    intro k it t c v e
    cases it with
    | none => unfold trimLoop; clean
    | some i =>
      unfold trimLoop
      refine (memoryMapFixed_clean _ _ _ _).bind fun ⟨w, f⟩ => ?_
      cases f
      · exact (enqueueFreeSlab_clean _ _).bind fun x => ih
      · exact Res.Clean.ok _

theorem purgeEntries_clean {arr : Nat → Nat} {size k0 : Nat} : ∀ {n i : Nat} {v : Vm} {e : Errno}, (purgeEntries arr size ch k0 n i v e).Clean := by
  intro n
  induction n with
  | zero => intro i v e; exact Res.Clean.ok _
  | succ n ih =>
    intro i v e
    unfold purgeEntries
    split
    · exact ih
    · exact (memoryPurge_clean _ _ _ _).bind fun w => ih

theorem trimClass_clean (v : Vm) : (trimClass g base cls ch c v e).Clean := by
  unfold trimClass
  refine trimLoop_clean.bind fun ⟨k, it, t, c1, w, e1⟩ => ?_
  refine Res.Clean.bind ?_ fun _ => Res.Clean.ok _
  unfold trimPurge
  split
  · (try dsimp only)
    split
    · clean
    · split
      · refine Res.Clean.bind (Res.Clean.ok _) fun x => ?_
        split
        · exact Res.Clean.ok _
        · exact purgeEntries_clean
      · refine Res.Clean.bind purgeEntries_clean fun x => ?_
        split
        · exact Res.Clean.ok _
        · exact purgeEntries_clean
  · clean

theorem lookupRegion_clean (rt : RegTable) (p : Nat) : (lookupRegion rt p).Clean := by
  unfold lookupRegion regionsFind
  cases tableFind hashPage rt.tab rt.total p with
  | none => exact Res.Clean.hang
  | some o => cases o <;> exact Res.Clean.ok _

theorem objectOffset_clean (p : Nat) : (objectOffset g base cls p c).Clean := by
  unfold objectOffset
  refine (getMetadata_clean _).bind fun m => ?_
  (try dsimp only)
  (repeat' split) <;> clean

/-- The same choices, but every system call succeeds. -/
def Choice.calm (ch : Choice) : Choice := { ch with sys := fun _ => .ok, growRemap := .ok, trailUnmap := .ok }

/-- Whether overwritten memory is reported does not depend on the outcome of system calls. -/
theorem allocateSmall_calm {v : Vm} {m : String} (hm : Corrupt m) (h : allocateSmall g base cls q ch c v e = .fatal m) :
    allocateSmall g base cls q ch.calm c v e = .fatal m := by
  unfold allocateSmall at h ⊢
  split at h
  · exact h
  · split at h
    · exact h
    · split at h
      · exact absurd hm (allocFromFree_clean _ _ _ h)
      · exact absurd hm (allocFromNew_clean _ _ h)

theorem deallocateSmall_calm {v : Vm} {p : Nat} {x : Option Nat} {m : String} (hm : Corrupt m) (h : deallocateSmall g base cls p x ch c v e = .fatal m) :
    deallocateSmall g base cls p x ch.calm c v e = .fatal m := by
  unfold deallocateSmall at h ⊢
  split at h
  · rename_i hx
    rw [if_pos hx]
    exact h
  · rename_i hx
    rw [if_neg hx]
    revert h
    (try dsimp only)
    cases h1 : findSlot g base cls p (c.statsDealloc g (g.slotSize cls)) "invalid unaligned free" "double free" with
    | ok y =>
      obtain ⟨i, s⟩ := y
      show (HM.scrubSlot g (tagging g ch) cls _ p v >>= _) = _ → (HM.scrubSlot g (tagging g ch) cls _ p v >>= _) = _
      cases h2 : HM.scrubSlot g (tagging g ch) cls ((c.statsDealloc g (g.slotSize cls)).slabs i).canary p v with
      | ok w =>
        intro h
        refine absurd hm ?_
        refine Res.Clean.bind (quarantineSlot_clean _ _ _) (fun y => ?_) _ h
        obtain ⟨c1, o⟩ := y
        cases o with
        | none => exact Res.Clean.ok _
        | some z => exact releaseSlot_clean _ _ _
      | _ => exact id
    | _ => exact id

end

/-! ### Actions and programs -/

theorem Res.Blind.strict {ι α β : Type} {R : (ι → α) → Prop} {S : (ι → β) → Prop} {r : ι → Res α} (G : ι → Res α → Res β) (h : Res.Blind R r)
    (hok : ∀ a, R a → Res.Blind S fun i => G i (.ok (a i))) (hf : ∀ i m, G i (.fatal m) = .fatal m) (hs : ∀ i, G i .segv = .segv)
    (hu : ∀ i m, G i (.ub m) = .ub m) (hh : ∀ i, G i .hang = .hang) : Res.Blind S fun i => G i (r i) := by
  cases h with
  | ok a h => exact hok a h
  | fatal m => simp only [hf]; exact .fatal m
  | segv => simp only [hs]; exact .segv
  | ub m => simp only [hu]; exact .ub m
  | hang => simp only [hh]; exact .hang
  | corrupt i hm h => exact .corrupt i hm (by rw [h, hf])

theorem Res.Clean.strict {α β : Type} {r : Res α} {G : Res α → Res β} (h : r.Clean) (hok : ∀ a, (G (.ok a)).Clean) (hf : ∀ m, G (.fatal m) = .fatal m)
    (hs : G .segv = .segv) (hu : ∀ m, G (.ub m) = .ub m) (hh : G .hang = .hang) : (G r).Clean := by
  cases hr : r with
  | ok a => exact hok a
  | fatal m => rw [hf]; exact .fatal (h m hr)
  | segv => rw [hs]; exact .segv
  | ub m => rw [hu]; exact .ub m
  | hang => rw [hh]; exact .hang

/-- The results of an action. -/
def RS {ι α : Type} (u : ι → Vm) (a : ι → St × α) : Prop :=
  ∃ (σ : St) (v : ι → Vm) (y : α), a = (fun i => ({ σ with vm := v i }, y)) ∧ Alike u v

/-- The action has the same effect in states that differ in the contents of memory only, unless it reports overwritten
memory in one of them; and whether it does is independent of the outcome of system calls. -/
structure BlindAct {γ β : Type} (f : Choice → St → γ → Res (St × γ × β)) : Prop where
  blind : ∀ {ι : Type} (ch : Choice) (σ : St) (tl : γ) (v : ι → Vm) (pr : Nat → Prot), (∀ i, (v i).prot = pr) →
    Res.Blind (RS v) fun i => f ch { σ with vm := v i } tl
  calm : ∀ ch σ tl m, Corrupt m → f ch σ tl = .fatal m → f ch.calm σ tl = .fatal m

/-- Every action of the program is so. -/
def Prog.Blind {α : Type} : Prog α → Prop
  | .ret _ => True
  | .act f k => BlindAct f ∧ ∀ b, (k b).Blind

theorem Prog.Blind.act {α β : Type} {l : Option Sect} {f : Choice → St → Tl → Res (St × Tl × β)} {k : β → Prog α} (h : (Prog.act (l := l) f k).Blind) :
    BlindAct f ∧ ∀ b, (k b).Blind := h

theorem Res.Clean.act {γ β : Type} {f : Choice → St → γ → Res (St × γ × β)} (h : ∀ ch σ tl, (f ch σ tl).Clean) :
    ∀ ch σ tl m, Corrupt m → f ch σ tl = .fatal m → f ch.calm σ tl = .fatal m :=
  fun _ _ _ _ hm e => absurd hm (h _ _ _ _ e)

namespace Blind

variable {α β : Type}

theorem pure (a : α) : (Pure.pure a : Prog α).Blind := trivial

theorem bind {P : Prog α} {k : α → Prog β} (h : P.Blind) (hk : ∀ a, (k a).Blind) : (P >>= k).Blind := by
  induction P with
  | ret a => exact hk a
  | act f j ih => exact ⟨h.1, fun b => ih b (h.2 b)⟩

theorem one {f : Choice → St → Tl → Res (St × Tl × β)} (h : BlindAct f) : (Prog.one f).Blind := ⟨h, fun _ => trivial⟩

theorem critical {ro : Ro} {s : Sect} {f : Choice → St → Errno → Res (St × Errno × β)} (h : BlindAct f) : (HM.critical ro s f).Blind := by
  refine ⟨⟨fun ch σ tl v pr hv => ?_, fun ch σ tl m hm hf => ?_⟩, fun _ => trivial⟩
  · cases hs : ro.g.sealMetadata && !tl.unsealed
    · simp only [Bool.false_eq_true, if_false]
      refine Res.Blind.strict (fun _ r => match r with
          | .ok (σ, e, b) => .ok (σ, { tl with errno := e }, b)
          | .fatal m => .fatal m
          | .segv => .segv
          | .ub w => .ub w
          | .hang => .hang) (h.blind ch σ tl.errno v pr hv) ?_ (fun _ _ => rfl) (fun _ => rfl) (fun _ _ => rfl) fun _ => rfl
      rintro _ ⟨σ1, w, ⟨e1, b⟩, rfl, B⟩
      exact .ok _ ⟨_, _, _, rfl, B⟩
    · exact .segv
  · try dsimp only at hf ⊢
    split at hf
    · cases hf
    · rename_i hs
      rw [if_neg hs]
      cases hr : f ch σ tl.errno with
      | ok x => rw [hr] at hf; cases hf
      | fatal m' => rw [hr] at hf; cases hf; rw [h.calm ch σ tl.errno m hm hr]
      | segv => rw [hr] at hf; cases hf
      | ub x => rw [hr] at hf; cases hf
      | hang => rw [hr] at hf; cases hf

/-- An action that does not look at memory. -/
theorem vmless {γ : Type} {f : Choice → St → γ → Res (St × γ × β)} (hc : ∀ ch σ tl, (f ch σ tl).Clean)
    (h : ∀ ch σ tl v', f ch { σ with vm := v' } tl = match f ch σ tl with
      | .ok (σ1, y) => .ok ({ σ1 with vm := v' }, y)
      | .fatal m => .fatal m
      | .segv => .segv
      | .ub w => .ub w
      | .hang => .hang) : BlindAct f := by
  refine ⟨fun ch σ tl v pr hv => ?_, Res.Clean.act hc⟩
  have e : (fun i => f ch { σ with vm := v i } tl) = fun i => match f ch σ tl with
      | .ok (σ1, y) => .ok ({ σ1 with vm := v i }, y)
      | .fatal m => .fatal m
      | .segv => .segv
      | .ub w => .ub w
      | .hang => .hang := funext fun i => h ch σ tl (v i)
  rw [e]
  cases f ch σ tl with
  | ok x => obtain ⟨σ1, y⟩ := x; exact .ok _ ⟨_, _, _, rfl, Alike.refl hv⟩
  | fatal m => exact .fatal m
  | segv => exact .segv
  | ub m => exact .ub m
  | hang => exact .hang

theorem setErrno (e : Errno) : (HM.setErrno e).Blind := one (vmless (fun _ _ _ => Res.Clean.ok _) fun _ _ _ _ => rfl)
theorem getErrno : HM.getErrno.Blind := one (vmless (fun _ _ _ => Res.Clean.ok _) fun _ _ _ _ => rfl)
theorem unsealMeta : HM.unsealMeta.Blind := one (vmless (fun _ _ _ => Res.Clean.ok _) fun _ _ _ _ => rfl)
theorem sealMeta : HM.sealMeta.Blind := one (vmless (fun _ _ _ => Res.Clean.ok _) fun _ _ _ _ => rfl)
theorem die {α : Type} {m : String} (h : ¬ Corrupt m) : (HM.die m : Prog α).Blind :=
  ⟨vmless (fun _ _ _ => Res.Clean.fatal h) fun _ _ _ _ => rfl, fun b => b.elim⟩

/-- A system call outside of any lock. -/
theorem sysCall (l : Bool) {f : Choice → Vm → Res (Vm × Bool)} (hb : ∀ {ι : Type} ch {v : ι → Vm}, Alike v v → Res.Blind (RB v) fun i => f ch (v i))
    (hc : ∀ ch v, (f ch v).Clean) : (HM.sysCall l f).Blind := by
  refine one ⟨fun ch σ tl v pr hv => ?_, Res.Clean.act fun ch σ tl => ?_⟩
  · refine Res.Blind.strict (fun i r => match r with
        | .ok (vm, failed) => .ok ({ σ with vm := vm },
            { tl with errno := if failed then ENOMEM else if l then ch.label 0 tl.errno else tl.errno }, failed)
        | .fatal m => .fatal m
        | .segv => .segv
        | .ub w => .ub w
        | .hang => .hang) (hb ch (Alike.refl hv)) ?_ (fun _ _ => rfl) (fun _ => rfl) (fun _ _ => rfl) fun _ => rfl
    rintro _ ⟨x, w, rfl, B⟩
    exact .ok _ ⟨_, _, _, rfl, B⟩
  · have h := hc ch σ.vm
    (try dsimp only)
    cases hf : f ch σ.vm with
    | fatal m => rw [hf] at h; exact Res.Clean.fatal (h m rfl)
    | ok x => exact Res.Clean.ok _
    | segv => exact Res.Clean.segv
    | ub m => exact Res.Clean.ub _
    | hang => exact Res.Clean.hang

theorem sysMapFixed (a n : Nat) : (HM.sysMapFixed a n).Blind :=
  sysCall _ (fun _ _ A => A.memoryMapFixed _ _ _) fun _ _ => memoryMapFixed_clean _ _ _ _
theorem sysUnmap (a n : Nat) : (HM.sysUnmap a n).Blind :=
  sysCall _ (fun _ _ A => A.memoryUnmap _ _ _) fun _ _ => memoryUnmap_clean _ _ _ _
theorem sysUnmapTrail (a n : Nat) : (HM.sysUnmapTrail a n).Blind :=
  sysCall _ (fun _ _ A => A.memoryUnmap _ _ _) fun _ _ => memoryUnmap_clean _ _ _ _
theorem sysProtect (a n : Nat) : (HM.sysProtect a n).Blind :=
  sysCall _ (fun _ _ A => A.memoryProtectRw _ _ _) fun _ _ => memoryProtectRw_clean _ _ _ _
theorem sysRemap (a n b k : Nat) : (HM.sysRemap a n b k).Blind :=
  sysCall _ (fun _ _ A => A.memoryRemapFixed _ _ _ _ _) fun _ _ => memoryRemapFixed_clean _ _ _ _ _ _
theorem sysPurge (a n : Nat) : (HM.sysPurge a n).Blind := by
  refine sysCall _ (fun ch v A => ?_) fun ch v => ?_
  · refine Res.Blind.strict (fun i r => match r with
      | .ok vm => .ok (vm, decide (ch.sys 0 ≠ .ok))
      | .fatal m => .fatal m
      | .segv => .segv
      | .ub w => .ub w
      | .hang => .hang) (A.memoryPurge (ch.sys 0) a n) ?_ (fun _ _ => rfl) (fun _ => rfl) (fun _ _ => rfl) fun _ => rfl
    exact fun w B => .ok _ ⟨_, _, rfl, B⟩
  · have h := memoryPurge_clean v (ch.sys 0) a n
    (try dsimp only)
    cases hf : HM.memoryPurge v (ch.sys 0) a n with
    | fatal m => rw [hf] at h; exact Res.Clean.fatal (h m rfl)
    | ok x => exact Res.Clean.ok _
    | segv => exact Res.Clean.segv
    | ub m => exact Res.Clean.ub _
    | hang => exact Res.Clean.hang

theorem sysMap (n : Nat) : (HM.sysMap n).Blind := by
  refine one ⟨fun ch σ tl v pr hv => ?_, Res.Clean.act fun ch σ tl => ?_⟩
  · refine Res.Blind.strict (fun i r => match r with
      | .ok (vm, some a) => .ok ({ σ with vm := vm }, { tl with errno := ch.label 0 tl.errno }, some a)
      | .ok (vm, none) => .ok ({ σ with vm := vm }, { tl with errno := ENOMEM }, none)
      | .fatal m => .fatal m
      | .segv => .segv
      | .ub w => .ub w
      | .hang => .hang) ((Alike.refl hv).memoryMap (ch.sys 0) ch.addr n) ?_ (fun _ _ => rfl) (fun _ => rfl) (fun _ _ => rfl) fun _ => rfl
    rintro _ ⟨x, w, rfl, B⟩
    cases x with
    | none => exact .ok _ ⟨_, _, _, rfl, B⟩
    | some a => exact .ok _ ⟨_, _, _, rfl, B⟩
  · have h := memoryMap_clean σ.vm (ch.sys 0) ch.addr n
    (try dsimp only)
    cases hf : HM.memoryMap σ.vm (ch.sys 0) ch.addr n with
    | fatal m => rw [hf] at h; exact Res.Clean.fatal (h m rfl)
    | ok x => obtain ⟨w, x⟩ := x; cases x <;> exact Res.Clean.ok _
    | segv => exact Res.Clean.segv
    | ub m => exact Res.Clean.ub _
    | hang => exact Res.Clean.hang

theorem memCopy (d s n : Nat) : (HM.memCopy d s n).Blind := by
  refine one ⟨fun ch σ tl v pr hv => ?_, Res.Clean.act fun ch σ tl => ?_⟩
  · have A := Alike.refl hv
    obtain ⟨F, hF⟩ := A.acc
    simp only [hF]
    cases F d n && F s n
    · exact .segv
    · exact .ok _ ⟨_, _, _, rfl, A.copy _ _ _⟩
  · split <;> clean

theorem memZero (p n : Nat) : (HM.memZero p n).Blind := by
  refine one ⟨fun ch σ tl v pr hv => ?_, Res.Clean.act fun ch σ tl => ?_⟩
  · have A := Alike.refl hv
    obtain ⟨F, hF⟩ := A.acc
    simp only [hF]
    cases F p n
    · exact .segv
    · exact .ok _ ⟨_, _, _, rfl, A.fill _ _ _⟩
  · split <;> clean

theorem drawGuard (ro : Ro) (n : Nat) : (HM.drawGuard ro n).Blind := critical (vmless (fun _ _ _ => Res.Clean.ok _) fun _ _ _ _ => rfl)
theorem readLargeStats (ro : Ro) : (HM.readLargeStats ro).Blind := critical (vmless (fun _ _ _ => Res.Clean.ok _) fun _ _ _ _ => rfl)
theorem readClassStats (ro : Ro) (a c : Nat) : (HM.readClassStats ro a c).Blind := critical (vmless (fun _ _ _ => Res.Clean.ok _) fun _ _ _ _ => rfl)

theorem regionsInsert_clean (hash : Nat → Nat) (mx : Nat) (a b : Bool) (t : RegTable) (r : RegionMeta) : (regionsInsert hash mx a b t r).Clean := by
  unfold regionsInsert
  have key : ∀ o : Option RegTable, (match o with
      | none => Res.ok none
      | some t => match tableInsert hash t.tab t.total r with
        | none => Res.hang
        | some tab => Res.ok (some { t.setTab tab with free := t.free - 1 })).Clean := by
    intro o
    cases o with
    | none => exact Res.Clean.ok _
    | some t => (try dsimp only); cases tableInsert hash t.tab t.total r <;> clean
  split
  · refine Res.Clean.bind ?_ key
    unfold regionsGrow
    (try dsimp only)
    (repeat' split) <;> clean
  · exact Res.Clean.bind (Res.Clean.ok _) key

theorem insertRegion (ro : Ro) (p n gd : Nat) (b : Bool) : (HM.insertRegion ro p n gd b).Blind := by
  refine critical (vmless (fun ch σ e => ?_) fun ch σ e v' => ?_)
  · (try dsimp only)
    split
    · clean
    · have h := regionsInsert_clean hashPage ro.g.maxRegionTable (decide (ch.sys 0 = .ok)) (decide (ch.growRemap = .ok)) σ.rt ⟨p, n, gd⟩
      cases hr : regionsInsert hashPage ro.g.maxRegionTable (decide (ch.sys 0 = .ok)) (decide (ch.growRemap = .ok)) σ.rt ⟨p, n, gd⟩ with
      | ok o => cases o <;> exact Res.Clean.ok _
      | fatal m => exact Res.Clean.fatal (h m hr)
      | segv => exact Res.Clean.segv
      | ub m => exact Res.Clean.ub _
      | hang => exact Res.Clean.hang
  · by_cases hc : σ.rt.free * 4 < σ.rt.total ∧ (ch.sys 0 = .other ∨ ch.growRemap = .other)
    · simp only [if_pos hc]
    · simp only [if_neg hc]
      cases hr : regionsInsert hashPage ro.g.maxRegionTable (decide (ch.sys 0 = .ok)) (decide (ch.growRemap = .ok)) σ.rt ⟨p, n, gd⟩ with
      | ok o => cases o <;> rfl
      | _ => rfl

theorem findRegion (ro : Ro) (p : Nat) {m : String} (hm : ¬ Corrupt m) : (HM.findRegion ro p m).Blind := by
  refine critical (vmless (fun ch σ e => ?_) fun ch σ e v' => ?_)
  · have h := lookupRegion_clean σ.rt p
    (try dsimp only)
    cases hr : lookupRegion σ.rt p with
    | ok o => cases o <;> first | exact Res.Clean.ok _ | exact Res.Clean.fatal hm
    | fatal m => exact Res.Clean.fatal (h m hr)
    | segv => exact Res.Clean.segv
    | ub m => exact Res.Clean.ub _
    | hang => exact Res.Clean.hang
  · (try dsimp only)
    cases hr : lookupRegion σ.rt p with
    | ok o => cases o <;> first | rfl | rfl
    | _ => rfl

theorem largeObjectSize (ro : Ro) (p : Nat) : (HM.largeObjectSize ro p).Blind := by
  refine critical (vmless (fun ch σ e => ?_) fun ch σ e v' => ?_)
  · have h := lookupRegion_clean σ.rt p
    (try dsimp only)
    cases hr : lookupRegion σ.rt p with
    | ok o => cases o <;> exact Res.Clean.ok _
    | fatal m => exact Res.Clean.fatal (h m hr)
    | segv => exact Res.Clean.segv
    | ub m => exact Res.Clean.ub _
    | hang => exact Res.Clean.hang
  · (try dsimp only)
    cases hr : lookupRegion σ.rt p with
    | ok o => cases o <;> rfl
    | _ => rfl

theorem resizeRegion (ro : Ro) (p o n : Nat) : (HM.resizeRegion ro p o n).Blind := by
  refine critical (vmless (fun ch σ e => ?_) fun ch σ e v' => ?_)
  · have h := lookupRegion_clean σ.rt p
    (try dsimp only)
    cases hr : lookupRegion σ.rt p with
    | ok o => cases o <;> first | exact Res.Clean.ok _ | exact Res.Clean.fatal (by decide)
    | fatal m => exact Res.Clean.fatal (h m hr)
    | segv => exact Res.Clean.segv
    | ub m => exact Res.Clean.ub _
    | hang => exact Res.Clean.hang
  · (try dsimp only)
    cases hr : lookupRegion σ.rt p with
    | ok o => cases o <;> first | rfl | rfl
    | _ => rfl

theorem removeRegion (ro : Ro) (p : Nat) (x : Option Nat) {m : String} (hm : ¬ Corrupt m) : (HM.removeRegion ro p x m).Blind := by
  refine critical (vmless (fun ch σ e => ?_) fun ch σ e v' => ?_)
  · have h := lookupRegion_clean σ.rt p
    (try dsimp only)
    cases hr : lookupRegion σ.rt p with
    | ok o =>
      cases o with
      | none => exact Res.Clean.fatal hm
      | some y =>
        obtain ⟨i, r⟩ := y
        (try dsimp only)
        split
        · clean
        · unfold regionsDelete
          cases tableDelete hashPage σ.rt.tab σ.rt.total i <;> clean
    | fatal m => exact Res.Clean.fatal (h m hr)
    | segv => exact Res.Clean.segv
    | ub m => exact Res.Clean.ub _
    | hang => exact Res.Clean.hang
  · (try dsimp only)
    cases hr : lookupRegion σ.rt p with
    | ok o =>
      cases o with
      | none => rfl
      | some y =>
        obtain ⟨i, r⟩ := y
        (try dsimp only)
        by_cases hx : (x.any fun s => decide (r.size ≠ getLargeSizeClass ro.g s)) = true
        · rw [if_pos hx, if_pos hx]
        · rw [if_neg hx, if_neg hx]
          cases regionsDelete hashPage σ.rt i with
          | ok rt => rfl
          | _ => rfl
    | _ => rfl

theorem quarantineRegion (ro : Ro) (t : Nat × Nat) : (HM.quarantineRegion ro t).Blind := by
  refine critical (vmless (fun ch σ e => ?_) fun ch σ e v' => ?_)
  · (try dsimp only); split <;> clean
  · have h2 : pushRegionRandom ro.g ch { σ with vm := v' } t = ({ (pushRegionRandom ro.g ch σ t).1 with vm := v' }, (pushRegionRandom ro.g ch σ t).2) := by
      unfold pushRegionRandom; split <;> rfl
    have h4 : ∀ (σ : St) (t : Nat × Nat), pushRegionQueue ro.g { σ with vm := v' } t = ({ (pushRegionQueue ro.g σ t).1 with vm := v' }, (pushRegionQueue ro.g σ t).2) := by
      intro σ t; unfold pushRegionQueue; split <;> rfl
    (try dsimp only)
    rw [h2]
    (try dsimp only)
    by_cases hz : (pushRegionRandom ro.g ch σ t).2.1 = 0
    · rw [if_pos hz, if_pos hz]
    · rw [if_neg hz, if_neg hz, h4]

theorem smallAlloc (ro : Ro) (a n : Nat) : (HM.smallAlloc ro a n).Blind := by
  refine critical ⟨fun ch σ e v pr hv => ?_, fun ch σ e m hm hf => ?_⟩
  · by_cases hs : nClasses ro.g ≤ (getSizeInfo n).cls ∨ ro.g.nArena ≤ a
    · simp only [if_pos hs]
      exact .ub _
    · simp only [if_neg hs]
      refine Res.Blind.strict (fun i r => match r with
        | .ok (p, c, vm, e) => .ok ({ σ with vm := vm, sc := fun b k => if b = a ∧ k = (getSizeInfo n).cls then c else σ.sc b k }, e, p)
        | .fatal m => .fatal m
        | .segv => .segv
        | .ub w => .ub w
        | .hang => .hang) (Alike.refl hv).allocateSmall ?_ (fun _ _ => rfl) (fun _ => rfl) (fun _ _ => rfl) fun _ => rfl
      rintro _ ⟨p, c, w, e1, rfl, B⟩
      exact .ok _ ⟨{ σ with sc := fun b k => if b = a ∧ k = (getSizeInfo n).cls then c else σ.sc b k }, _, _, rfl, B⟩
  · dsimp only at hf ⊢
    split at hf
    · cases hf
    · rename_i hs
      rw [if_neg hs]
      cases hr : allocateSmall ro.g (ro.regionStart a (getSizeInfo n).cls) (getSizeInfo n).cls n ch (σ.sc a (getSizeInfo n).cls) σ.vm e with
      | fatal m' => rw [hr] at hf; cases hf; rw [allocateSmall_calm hm hr]
      | ok x => rw [hr] at hf; cases hf
      | segv => rw [hr] at hf; cases hf
      | ub x => rw [hr] at hf; cases hf
      | hang => rw [hr] at hf; cases hf

theorem smallFree (ro : Ro) (p : Nat) (x : Option Nat) : (HM.smallFree ro p x).Blind := by
  refine critical ⟨fun ch σ e v pr hv => ?_, fun ch σ e m hm hf => ?_⟩
  · by_cases hs : nClasses ro.g ≤ (ro.sizeClassOf p).2 ∨ ro.g.nArena ≤ (ro.sizeClassOf p).1
    · simp only [if_pos hs]
      exact .ub _
    · simp only [if_neg hs]
      refine Res.Blind.strict (fun i r => match r with
        | .ok (c, vm, e) => .ok ({ σ with vm := vm, sc := fun b k => if b = (ro.sizeClassOf p).1 ∧ k = (ro.sizeClassOf p).2 then c else σ.sc b k }, e, ())
        | .fatal m => .fatal m
        | .segv => .segv
        | .ub w => .ub w
        | .hang => .hang) ((Alike.refl hv).deallocateSmall p x) ?_ (fun _ _ => rfl) (fun _ => rfl) (fun _ _ => rfl) fun _ => rfl
      rintro _ ⟨c, w, e1, rfl, B⟩
      exact .ok _ ⟨{ σ with sc := fun b k => if b = (ro.sizeClassOf p).1 ∧ k = (ro.sizeClassOf p).2 then c else σ.sc b k }, _, _, rfl, B⟩
  · dsimp only at hf ⊢
    split at hf
    · cases hf
    · rename_i hs
      rw [if_neg hs]
      cases hr : deallocateSmall ro.g (ro.regionStart (ro.sizeClassOf p).1 (ro.sizeClassOf p).2) (ro.sizeClassOf p).2 p x ch (σ.sc (ro.sizeClassOf p).1 (ro.sizeClassOf p).2) σ.vm e with
      | fatal m' => rw [hr] at hf; cases hf; rw [deallocateSmall_calm hm hr]
      | ok x => rw [hr] at hf; cases hf
      | segv => rw [hr] at hf; cases hf
      | ub x => rw [hr] at hf; cases hf
      | hang => rw [hr] at hf; cases hf

theorem smallTrim (ro : Ro) (a c : Nat) : (HM.smallTrim ro a c).Blind := by
  refine critical ⟨fun ch σ e v pr hv => ?_, Res.Clean.act fun ch σ e => ?_⟩
  · refine Res.Blind.strict (fun i r => match r with
      | .ok (t, x, vm, e) => .ok ({ σ with vm := vm, sc := fun b k => if b = a ∧ k = c then x else σ.sc b k }, e, t)
      | .fatal m => .fatal m
      | .segv => .segv
      | .ub w => .ub w
      | .hang => .hang) (Alike.refl hv).trimClass ?_ (fun _ _ => rfl) (fun _ => rfl) (fun _ _ => rfl) fun _ => rfl
    rintro _ ⟨p, c1, w, e1, rfl, B⟩
    exact .ok _ ⟨{ σ with sc := fun b k => if b = a ∧ k = c then c1 else σ.sc b k }, _, _, rfl, B⟩
  · have h := trimClass_clean (g := ro.g) (base := ro.regionStart a c) (cls := c) (ch := ch) (c := σ.sc a c) (e := e) σ.vm
    (try dsimp only)
    cases hr : trimClass ro.g (ro.regionStart a c) c ch (σ.sc a c) σ.vm e with
    | ok x => exact Res.Clean.ok _
    | fatal m => exact Res.Clean.fatal (h m hr)
    | segv => exact Res.Clean.segv
    | ub m => exact Res.Clean.ub _
    | hang => exact Res.Clean.hang

theorem smallCheck (ro : Ro) (p : Nat) : (HM.smallCheck ro p).Blind := by
  refine critical ⟨fun ch σ e v pr hv => ?_, fun ch σ e m hm hf => hf⟩
  by_cases hs : nClasses ro.g ≤ (ro.sizeClassOf p).2 ∨ ro.g.nArena ≤ (ro.sizeClassOf p).1
  · simp only [if_pos hs]
    exact .ub _
  · simp only [if_neg hs]
    refine Res.Blind.strict (fun i r => match r with
      | .ok _ => .ok ({ σ with vm := v i }, e, ())
      | .fatal m => .fatal m
      | .segv => .segv
      | .ub w => .ub w
      | .hang => .hang) ((Alike.refl hv).memoryCorruptionCheckSmall (tagging ro.g ch) p) ?_ (fun _ _ => rfl) (fun _ => rfl) (fun _ _ => rfl) fun _ => rfl
    exact fun _ _ => .ok _ ⟨_, _, _, rfl, Alike.refl hv⟩

theorem smallOffset (ro : Ro) (p : Nat) : (HM.smallOffset ro p).Blind := by
  refine critical (vmless (fun ch σ e => ?_) fun ch σ e v' => ?_)
  · (try dsimp only)
    split
    · clean
    · have h := objectOffset_clean (g := ro.g) (base := ro.regionStart (ro.sizeClassOf p).1 (ro.sizeClassOf p).2) (cls := (ro.sizeClassOf p).2) (c := σ.sc (ro.sizeClassOf p).1 (ro.sizeClassOf p).2) p
      cases hr : objectOffset ro.g (ro.regionStart (ro.sizeClassOf p).1 (ro.sizeClassOf p).2) (ro.sizeClassOf p).2 p (σ.sc (ro.sizeClassOf p).1 (ro.sizeClassOf p).2) with
      | ok x => exact Res.Clean.ok _
      | fatal m => exact Res.Clean.fatal (h m hr)
      | segv => exact Res.Clean.segv
      | ub m => exact Res.Clean.ub _
      | hang => exact Res.Clean.hang
  · (try dsimp only)
    by_cases hs : nClasses ro.g ≤ (ro.sizeClassOf p).2 ∨ ro.g.nArena ≤ (ro.sizeClassOf p).1
    · rw [if_pos hs, if_pos hs]
    · rw [if_neg hs, if_neg hs]
      cases objectOffset ro.g (ro.regionStart (ro.sizeClassOf p).1 (ro.sizeClassOf p).2) (ro.sizeClassOf p).2 p (σ.sc (ro.sizeClassOf p).1 (ro.sizeClassOf p).2) with
      | ok x => rfl
      | _ => rfl

attribute [irreducible] Prog.Blind

/-- One step through a program. -/
syntax "blind1" : tactic
/-- Walk through a program. -/
macro "blinds" : tactic => `(tactic| repeat (first | with_reducible exact Blind.pure _ | with_reducible assumption | blind1 | with_reducible refine Blind.bind ?_ fun _ => ?_ | split | simp only))
macro_rules | `(tactic| blind1) => `(tactic| with_reducible exact setErrno _)
macro_rules | `(tactic| blind1) => `(tactic| with_reducible exact getErrno)
macro_rules | `(tactic| blind1) => `(tactic| with_reducible exact unsealMeta)
macro_rules | `(tactic| blind1) => `(tactic| with_reducible exact sealMeta)
macro_rules | `(tactic| blind1) => `(tactic| with_reducible exact die (by decide))
macro_rules | `(tactic| blind1) => `(tactic| with_reducible exact sysMap _)
macro_rules | `(tactic| blind1) => `(tactic| with_reducible exact sysMapFixed _ _)
macro_rules | `(tactic| blind1) => `(tactic| with_reducible exact sysUnmap _ _)
macro_rules | `(tactic| blind1) => `(tactic| with_reducible exact sysUnmapTrail _ _)
macro_rules | `(tactic| blind1) => `(tactic| with_reducible exact sysProtect _ _)
macro_rules | `(tactic| blind1) => `(tactic| with_reducible exact sysRemap _ _ _ _)
macro_rules | `(tactic| blind1) => `(tactic| with_reducible exact sysPurge _ _)
macro_rules | `(tactic| blind1) => `(tactic| with_reducible exact memCopy _ _ _)
macro_rules | `(tactic| blind1) => `(tactic| with_reducible exact memZero _ _)
macro_rules | `(tactic| blind1) => `(tactic| with_reducible exact drawGuard _ _)
macro_rules | `(tactic| blind1) => `(tactic| with_reducible exact insertRegion _ _ _ _ _)
macro_rules | `(tactic| blind1) => `(tactic| with_reducible exact findRegion _ _ (by decide))
macro_rules | `(tactic| blind1) => `(tactic| with_reducible exact removeRegion _ _ _ (by decide))
macro_rules | `(tactic| blind1) => `(tactic| with_reducible exact resizeRegion _ _ _ _)
macro_rules | `(tactic| blind1) => `(tactic| with_reducible exact quarantineRegion _ _)
macro_rules | `(tactic| blind1) => `(tactic| with_reducible exact smallAlloc _ _ _)
macro_rules | `(tactic| blind1) => `(tactic| with_reducible exact smallFree _ _ _)
macro_rules | `(tactic| blind1) => `(tactic| with_reducible exact smallTrim _ _ _)
macro_rules | `(tactic| blind1) => `(tactic| with_reducible exact smallCheck _ _)
macro_rules | `(tactic| blind1) => `(tactic| with_reducible exact smallOffset _ _)
macro_rules | `(tactic| blind1) => `(tactic| with_reducible exact largeObjectSize _ _)
macro_rules | `(tactic| blind1) => `(tactic| with_reducible exact readLargeStats _)
macro_rules | `(tactic| blind1) => `(tactic| with_reducible exact readClassStats _ _ _)

theorem deallocatePages (p n gd : Nat) : (HM.deallocatePages p n gd).Blind := by
  unfold HM.deallocatePages
  blinds
macro_rules | `(tactic| blind1) => `(tactic| with_reducible exact deallocatePages _ _ _)
theorem allocatePages (n gd : Nat) : (HM.allocatePages n gd).Blind := by
  unfold HM.allocatePages
  blinds
macro_rules | `(tactic| blind1) => `(tactic| with_reducible exact allocatePages _ _)
theorem trimMapping (a b c d e f k : Nat) : (HM.trimMapping a b c d e f k).Blind := by
  unfold HM.trimMapping
  blinds
macro_rules | `(tactic| blind1) => `(tactic| with_reducible exact trimMapping _ _ _ _ _ _ _)
theorem mapAligned (a b c d e : Nat) : (HM.mapAligned a b c d e).Blind := by
  unfold HM.mapAligned
  blinds
macro_rules | `(tactic| blind1) => `(tactic| with_reducible exact mapAligned _ _ _ _ _)
theorem allocatePagesAligned (a b c : Nat) : (HM.allocatePagesAligned a b c).Blind := by
  unfold HM.allocatePagesAligned
  simp only
  generalize W64 = w
  blinds
macro_rules | `(tactic| blind1) => `(tactic| with_reducible exact allocatePagesAligned _ _ _)
theorem quarantineDeallocatePages (ro : Ro) (a b c : Nat) : (HM.quarantineDeallocatePages ro a b c).Blind := by
  unfold HM.quarantineDeallocatePages
  blinds
macro_rules | `(tactic| blind1) => `(tactic| with_reducible exact quarantineDeallocatePages _ _ _ _)
theorem finishLarge (ro : Ro) (a b : Nat) (c : Bool) (p : Option Nat) : (HM.finishLarge ro a b c p).Blind := by
  unfold HM.finishLarge
  blinds
macro_rules | `(tactic| blind1) => `(tactic| with_reducible exact finishLarge _ _ _ _ _)
theorem allocateLarge (ro : Ro) (n : Nat) : (HM.allocateLarge ro n).Blind := by
  unfold HM.allocateLarge
  blinds
macro_rules | `(tactic| blind1) => `(tactic| with_reducible exact allocateLarge _ _)
theorem allocate (ro : Ro) (a n : Nat) : (HM.allocate ro a n).Blind := by
  unfold HM.allocate
  blinds
macro_rules | `(tactic| blind1) => `(tactic| with_reducible exact allocate _ _ _)
theorem deallocateLarge (ro : Ro) (p : Nat) (x : Option Nat) : (HM.deallocateLarge ro p x).Blind := by
  unfold HM.deallocateLarge
  blinds
macro_rules | `(tactic| blind1) => `(tactic| with_reducible exact deallocateLarge _ _ _)
theorem allocateOverAligned (ro : Ro) (a n : Nat) : (HM.allocateOverAligned ro a n).Blind := by
  unfold HM.allocateOverAligned
  blinds
macro_rules | `(tactic| blind1) => `(tactic| with_reducible exact allocateOverAligned _ _ _)
theorem allocateAligned (ro : Ro) (a b c d : Nat) : (HM.allocateAligned ro a b c d).Blind := by
  unfold HM.allocateAligned
  blinds
macro_rules | `(tactic| blind1) => `(tactic| with_reducible exact allocateAligned _ _ _ _ _)
theorem allocAligned (ro : Ro) (a b c d : Nat) : (HM.allocAligned ro a b c d).Blind := by
  unfold HM.allocAligned
  blinds
macro_rules | `(tactic| blind1) => `(tactic| with_reducible exact allocAligned _ _ _ _ _)
theorem allocAlignedSimple (ro : Ro) (a b c : Nat) : (HM.allocAlignedSimple ro a b c).Blind := by
  unfold HM.allocAlignedSimple
  blinds
macro_rules | `(tactic| blind1) => `(tactic| with_reducible exact allocAlignedSimple _ _ _ _)
theorem alloc (ro : Ro) (a n : Nat) : (HM.alloc ro a n).Blind := by
  unfold HM.alloc
  blinds
macro_rules | `(tactic| blind1) => `(tactic| with_reducible exact alloc _ _ _)
theorem hCalloc (ro : Ro) (a n k : Nat) : (HM.hCalloc ro a n k).Blind := by
  unfold HM.hCalloc
  blinds
macro_rules | `(tactic| blind1) => `(tactic| with_reducible exact hCalloc _ _ _ _)
theorem reallocCopy (ro : Ro) (a b c d : Nat) : (HM.reallocCopy ro a b c d).Blind := by
  unfold HM.reallocCopy
  blinds
macro_rules | `(tactic| blind1) => `(tactic| with_reducible exact reallocCopy _ _ _ _ _)
theorem reallocShrink (ro : Ro) (a b c d : Nat) : (HM.reallocShrink ro a b c d).Blind := by
  unfold HM.reallocShrink
  blinds
macro_rules | `(tactic| blind1) => `(tactic| with_reducible exact reallocShrink _ _ _ _ _)
theorem reallocMove (ro : Ro) (a b c d : Nat) : (HM.reallocMove ro a b c d).Blind := by
  unfold HM.reallocMove
  blinds
macro_rules | `(tactic| blind1) => `(tactic| with_reducible exact reallocMove _ _ _ _ _)
theorem reallocLarge (ro : Ro) (a b c : Nat) : (HM.reallocLarge ro a b c).Blind := by
  unfold HM.reallocLarge
  blinds
macro_rules | `(tactic| blind1) => `(tactic| with_reducible exact reallocLarge _ _ _ _)
theorem reallocSized (ro : Ro) (a b c : Nat) : (HM.reallocSized ro a b c).Blind := by
  unfold HM.reallocSized
  blinds
macro_rules | `(tactic| blind1) => `(tactic| with_reducible exact reallocSized _ _ _ _)
theorem hRealloc (ro : Ro) (a b c : Nat) : (HM.hRealloc ro a b c).Blind := by
  unfold HM.hRealloc
  blinds
macro_rules | `(tactic| blind1) => `(tactic| with_reducible exact hRealloc _ _ _ _)
theorem hPvalloc (ro : Ro) (a n : Nat) : (HM.hPvalloc ro a n).Blind := by
  unfold HM.hPvalloc
  blinds
macro_rules | `(tactic| blind1) => `(tactic| with_reducible exact hPvalloc _ _ _)
theorem hFree (ro : Ro) (p : Nat) : (HM.hFree ro p).Blind := by
  unfold HM.hFree
  blinds
macro_rules | `(tactic| blind1) => `(tactic| with_reducible exact hFree _ _)
theorem hFreeSized (ro : Ro) (p n : Nat) : (HM.hFreeSized ro p n).Blind := by
  unfold HM.hFreeSized
  blinds
macro_rules | `(tactic| blind1) => `(tactic| with_reducible exact hFreeSized _ _ _)
theorem hUsableSize (ro : Ro) (p : Nat) : (HM.hUsableSize ro p).Blind := by
  unfold HM.hUsableSize
  blinds
macro_rules | `(tactic| blind1) => `(tactic| with_reducible exact hUsableSize _ _)
theorem hObjectSize (ro : Ro) (p : Nat) : (HM.hObjectSize ro p).Blind := by
  unfold HM.hObjectSize
  blinds
macro_rules | `(tactic| blind1) => `(tactic| with_reducible exact hObjectSize _ _)
theorem hObjectSizeFast (ro : Ro) (p : Nat) : (HM.hObjectSizeFast ro p).Blind := by
  unfold HM.hObjectSizeFast
  blinds
macro_rules | `(tactic| blind1) => `(tactic| with_reducible exact hObjectSizeFast _ _)

theorem trimClasses (ro : Ro) (a : Nat) : ∀ n c t, (HM.trimClasses ro a n c t).Blind := by
  intro n
  induction n with
  | zero => intro c t; exact Blind.pure _
  | succ n ih => intro c t; exact Blind.bind (smallTrim _ _ _) fun _ => ih _ _

theorem trimArenas (ro : Ro) : ∀ n a t, (HM.trimArenas ro n a t).Blind := by
  intro n
  induction n with
  | zero => intro a t; exact Blind.pure _
  | succ n ih => intro a t; exact Blind.bind (trimClasses _ _ _ _ _) fun _ => ih _ _

theorem sumClasses (ro : Ro) (a : Nat) : ∀ n c t, (HM.sumClasses ro a n c t).Blind := by
  intro n
  induction n with
  | zero => intro c t; exact Blind.pure _
  | succ n ih => intro c t; exact Blind.bind (readClassStats _ _ _) fun _ => ih _ _

theorem sumArenas (ro : Ro) : ∀ n a t, (HM.sumArenas ro n a t).Blind := by
  intro n
  induction n with
  | zero => intro a t; exact Blind.pure _
  | succ n ih => intro a t; exact Blind.bind (sumClasses _ _ _ _ _) fun _ => ih _ _

macro_rules | `(tactic| blind1) => `(tactic| with_reducible exact trimArenas _ _ _ _)
macro_rules | `(tactic| blind1) => `(tactic| with_reducible exact sumArenas _ _ _ _)

theorem hTrim (ro : Ro) : (HM.hTrim ro).Blind := by
  unfold HM.hTrim
  blinds

theorem hMallinfo (ro : Ro) : (HM.hMallinfo ro).Blind := by
  unfold HM.hMallinfo
  blinds

macro_rules | `(tactic| blind1) => `(tactic| with_reducible exact hTrim _)
macro_rules | `(tactic| blind1) => `(tactic| with_reducible exact hMallinfo _)

theorem prog (ro : Ro) (a : Nat) (c : Call) : (c.prog ro a).Blind := by
  cases c <;> unfold Call.prog <;> (try unfold hMalloc hPosixMemalign hAlignedAlloc hValloc) <;> blinds


end Blind
end HM
