import Verif.Cell
/-
Functions do the same on states that differ only in parts they do not use: the wrappers of memory.c, and the pieces of the
slab allocator that access memory.
-/
namespace HM

namespace Res

theorem Rel.refl {α : Type} {R : α → α → Prop} (h : ∀ a, R a a) (x : Res α) : Rel R x x := by
  cases x <;> first | exact h _ | rfl | trivial

theorem Rel.mono {α β : Type} {R S : α → β → Prop} (h : ∀ a b, R a b → S a b) {x : Res α} {y : Res β} (r : Rel R x y) : Rel S x y := by
  cases x <;> cases y <;> first | exact h _ _ r | exact r

theorem Rel.bind {α β γ δ : Type} {R : α → β → Prop} {S : γ → δ → Prop} {x : Res α} {y : Res β} {f : α → Res γ} {g : β → Res δ}
    (r : Rel R x y) (h : ∀ a b, x = .ok a → R a b → Rel S (f a) (g b)) : Rel S (x >>= f) (y >>= g) := by
  cases x <;> cases y <;> first | exact h _ _ rfl r | exact r | exact r.elim

/-- The same computation on both sides. -/
theorem Rel.same {α γ δ : Type} {S : γ → δ → Prop} {x : Res α} {f : α → Res γ} {g : α → Res δ}
    (h : ∀ a, x = .ok a → Rel S (f a) (g a)) : Rel S (x >>= f) (x >>= g) :=
  (Rel.refl (R := (· = ·)) (fun _ => rfl) x).bind fun a _ e hb => by subst hb; exact h a e

end Res

section
variable {P B : Nat → Prop} {ν vm : Vm}

theorem Vm.patch_prot {pg : Nat} (h : ¬ P pg) : (vm.patch P B ν).prot pg = vm.prot pg := if_neg h
theorem Vm.patch_mem {x : Nat} (h : ¬ B x) : (vm.patch P B ν).mem x = vm.mem x := if_neg h

theorem setProt_patch {a n : Nat} {pr : Prot} (h : ∀ pg, inPages a n pg → ¬ P pg) :
    (vm.patch P B ν).setProt a n pr = (vm.setProt a n pr).patch P B ν := by
  unfold Vm.setProt Vm.patch
  congr 1
  funext pg
  by_cases k : inPages a n pg
  · simp only [if_pos k, if_neg (h pg k)]
  · simp only [if_neg k]

theorem zeroPages_patch {a n : Nat} (h : ∀ x, inPages a n (x / PAGE) → ¬ B x) :
    (vm.patch P B ν).zeroPages a n = (vm.zeroPages a n).patch P B ν := by
  unfold Vm.zeroPages Vm.patch
  congr 1
  funext x
  by_cases k : inPages a n (x / PAGE)
  · simp only [if_pos k, if_neg (h x k)]
  · simp only [if_neg k]

theorem fill_patch {a n : Nat} {v : BitVec 8} (h : ∀ x, inRange a n x → ¬ B x) :
    (vm.patch P B ν).fill a n v = (vm.fill a n v).patch P B ν := by
  unfold Vm.fill Vm.patch
  congr 1
  funext x
  by_cases k : inRange a n x
  · simp only [if_pos k, if_neg (h x k)]
  · simp only [if_neg k]

theorem allPages_congr {a n : Nat} {f g : Nat → Bool} (h : ∀ pg, inPages a n pg → f pg = g pg) : Vm.allPages a n f = Vm.allPages a n g := by
  unfold Vm.allPages
  refine decide_eq_decide.mpr (forall_congr' fun k => forall_congr' fun hk => ?_)
  rw [h _ (by unfold inPages; omega)]

theorem accessible_patch {a n : Nat} (h : ∀ pg, inPages a n pg → ¬ P pg) : (vm.patch P B ν).accessible a n = vm.accessible a n := by
  unfold Vm.accessible
  rw [allPages_congr fun pg hp => by rw [Vm.patch_prot (h pg hp)]]

/-- The memory is patched, the rest of the result is the same. -/
def PatchR {α : Type} (P B : Nat → Prop) (ν : Vm) (r r' : Vm × α) : Prop := r'.1 = r.1.patch P B ν ∧ r'.2 = r.2

theorem memoryMapFixed_patch {r : SysRes} {a n : Nat} (hP : ∀ pg, inPages a n pg → ¬ P pg) (hB : ∀ x, inPages a n (x / PAGE) → ¬ B x) :
    Res.Rel (PatchR P B ν) (memoryMapFixed vm r a n) (memoryMapFixed (vm.patch P B ν) r a n) := by
  unfold memoryMapFixed
  split
  · rfl
  · cases r with
    | other => rfl
    | enomem => exact ⟨rfl, rfl⟩
    | ok => exact ⟨by rw [setProt_patch hP, zeroPages_patch hB], rfl⟩

theorem memoryUnmap_patch {r : SysRes} {a n : Nat} (hP : ∀ pg, inPages a n pg → ¬ P pg) :
    Res.Rel (PatchR P B ν) (memoryUnmap vm r a n) (memoryUnmap (vm.patch P B ν) r a n) := by
  unfold memoryUnmap
  split
  · rfl
  · cases r with
    | other => rfl
    | enomem => exact ⟨rfl, rfl⟩
    | ok => exact ⟨setProt_patch hP, rfl⟩

theorem memoryProtectRw_patch {r : SysRes} {a n : Nat} (hP : ∀ pg, inPages a n pg → ¬ P pg) :
    Res.Rel (PatchR P B ν) (memoryProtectRw vm r a n) (memoryProtectRw (vm.patch P B ν) r a n) := by
  unfold memoryProtectRw
  split
  · rfl
  · cases r with
    | other => rfl
    | enomem => exact ⟨rfl, rfl⟩
    | ok =>
      simp only
      rw [allPages_congr (f := fun pg => (vm.patch P B ν).prot pg != .unmapped) fun pg hp => by rw [Vm.patch_prot (h := hP pg hp)]]
      split
      · exact ⟨setProt_patch hP, rfl⟩
      · exact ⟨rfl, rfl⟩

theorem memoryPurge_patch {r : SysRes} {a n : Nat} (hB : ∀ x, inPages a n (x / PAGE) → ¬ B x) :
    Res.Rel (fun v v' => v' = v.patch P B ν) (memoryPurge vm r a n) (memoryPurge (vm.patch P B ν) r a n) := by
  unfold memoryPurge
  split
  · rfl
  · cases r with
    | other => rfl
    | enomem => exact rfl
    | ok => exact zeroPages_patch hB

theorem memoryRemapFixed_patch {r : SysRes} {old oldSize new newSize : Nat} (hP : ∀ pg, inPages new newSize pg → ¬ P pg)
    (hP' : ∀ pg, inPages old oldSize pg → ¬ P pg) (hB : ∀ x, inPages new newSize (x / PAGE) → ¬ B x)
    (hB' : ∀ x, inPages old oldSize (x / PAGE) → ¬ B x) :
    Res.Rel (PatchR P B ν) (memoryRemapFixed vm r old oldSize new newSize) (memoryRemapFixed (vm.patch P B ν) r old oldSize new newSize) := by
  unfold memoryRemapFixed
  split
  · rfl
  · cases r with
    | other => rfl
    | enomem => exact ⟨rfl, rfl⟩
    | ok =>
      refine ⟨?_, rfl⟩
      unfold Vm.patch
      simp only [Vm.mk.injEq]
      constructor
      · funext pg
        by_cases k : inPages new newSize pg
        · simp only [if_pos k, if_neg (hP pg k)]
        · by_cases k' : inPages old oldSize pg
          · simp only [if_neg k, if_pos k', if_neg (hP' pg k')]
          · simp only [if_neg k, if_neg k']
      · funext x
        by_cases k : inPages new newSize (x / PAGE)
        · by_cases k' : inPages old oldSize ((old + (x - new)) / PAGE)
          · simp only [if_pos k, if_pos k', if_neg (hB x k), if_neg (hB' _ k')]
          · simp only [if_pos k, if_neg k', if_neg (hB x k)]
        · simp only [if_neg k]

theorem memoryMap_patch {r : SysRes} {a n : Nat} (hν : ∀ pg, P pg → ν.prot pg ≠ .unmapped) (hv : ∀ pg, P pg → vm.prot pg ≠ .unmapped)
    (hB : ∀ x, B x → vm.prot (x / PAGE) ≠ .unmapped) :
    Res.Rel (PatchR P B ν) (memoryMap vm r a n) (memoryMap (vm.patch P B ν) r a n) := by
  unfold memoryMap
  cases r with
  | other => rfl
  | enomem => exact ⟨rfl, rfl⟩
  | ok =>
    simp only
    split
    · rfl
    · have e : Vm.allPages a n (fun pg => (vm.patch P B ν).prot pg == .unmapped) = Vm.allPages a n (fun pg => vm.prot pg == .unmapped) := by
        refine allPages_congr fun pg _ => ?_
        by_cases k : P pg
        · rw [show (vm.patch P B ν).prot pg = ν.prot pg from if_pos k, beq_false_of_ne (hν pg k), beq_false_of_ne (hv pg k)]
        · rw [Vm.patch_prot k]
      rw [e]
      split
      · rename_i hc
        have hc := hc.2.2.2
        unfold Vm.allPages at hc
        rw [decide_eq_true_iff] at hc
        have hc' : ∀ pg, inPages a n pg → vm.prot pg = .unmapped := fun pg hp => by
          have := hc (pg - a / PAGE) (by unfold inPages at hp; omega)
          rw [show a / PAGE + (pg - a / PAGE) = pg by unfold inPages at hp; omega] at this
          simpa using this
        exact ⟨by rw [setProt_patch fun pg hp k => hv pg k (hc' pg hp), zeroPages_patch fun x hx k => hB x k (hc' _ hx)], rfl⟩
      · exact ⟨rfl, rfl⟩

/-! ### Pieces of the slab allocator -/

theorem wordZero_patch {a : Nat} (hB : ∀ x, inRange a 8 x → ¬ B x) : (vm.patch P B ν).wordZero a = vm.wordZero a := by
  unfold Vm.wordZero
  refine decide_eq_decide.mpr (forall_congr' fun k => forall_congr' fun hk => ?_)
  rw [Vm.patch_mem (hB _ (by unfold inRange; omega))]

theorem clearMem_patch {p n : Nat} (hP : ∀ pg, inPages p n pg → ¬ P pg) (hB : ∀ x, inRange p n x → ¬ B x) :
    Res.Rel (fun v v' => v' = v.patch P B ν) (clearMem p n vm) (clearMem p n (vm.patch P B ν)) := by
  unfold clearMem
  rw [accessible_patch hP]
  split
  · exact fill_patch hB
  · trivial

theorem writeAfterFreeCheck_patch {g : Cfg} {tag : Bool} {p n : Nat} (h8 : n % 8 = 0) (hP : ∀ pg, inPages p n pg → ¬ P pg) (hB : ∀ x, inRange p n x → ¬ B x) :
    writeAfterFreeCheck g tag p n (vm.patch P B ν) = writeAfterFreeCheck g tag p n vm := by
  unfold writeAfterFreeCheck
  rw [accessible_patch hP]
  have e : decide (∀ i : Nat, i < (n + 7) / 8 → (vm.patch P B ν).wordZero (p + i * 8) = true) =
      decide (∀ i : Nat, i < (n + 7) / 8 → vm.wordZero (p + i * 8) = true) := by
    refine decide_eq_decide.mpr (forall_congr' fun i => forall_congr' fun hi => ?_)
    rw [wordZero_patch fun x hx => hB x (by unfold inRange at *; omega)]
  rw [e]

theorem setCanary_patch {g : Cfg} {tag : Bool} {v : BitVec 64} {p n : Nat} (hP : ∀ pg, inPages (p + n - 8) 8 pg → ¬ P pg)
    (hB : ∀ x, g.slabCanary = true → inRange (p + n - 8) 8 x → ¬ B x) :
    Res.Rel (fun v v' => v' = v.patch P B ν) (setCanary g tag v p n vm) (setCanary g tag v p n (vm.patch P B ν)) := by
  unfold setCanary
  dsimp only
  rw [accessible_patch hP]
  split
  · exact rfl
  · rename_i hc
    split
    · show _ = _
      unfold Vm.patch
      congr 1
      funext x
      by_cases k : inRange (p + n - 8) 8 x
      · simp only [if_pos k, if_neg (hB x (by simp only [Bool.or_eq_true, not_or] at hc; simpa using hc.1) k)]
      · simp only [if_neg k]
    · trivial

theorem checkCanary_patch {g : Cfg} {tag : Bool} {v : BitVec 64} {p n : Nat} (hP : ∀ pg, inPages (p + n - 8) 8 pg → ¬ P pg)
    (hB : ∀ x, g.slabCanary = true → inRange (p + n - 8) 8 x → ¬ B x) : checkCanary g tag v p n (vm.patch P B ν) = checkCanary g tag v p n vm := by
  unfold checkCanary
  dsimp only
  rw [accessible_patch hP]
  split
  · rfl
  · rename_i hc
    have hc : g.slabCanary = true := by simp only [Bool.or_eq_true, not_or] at hc; simpa using hc.1
    have e : decide (∀ k : Nat, k < 8 → (vm.patch P B ν).mem (p + n - 8 + k) = byteOf v k) =
        decide (∀ k : Nat, k < 8 → vm.mem (p + n - 8 + k) = byteOf v k) := by
      refine decide_eq_decide.mpr (forall_congr' fun k => forall_congr' fun hk => ?_)
      rw [Vm.patch_mem (hB _ hc (by unfold inRange; omega))]
    simp only [e, wordZero_patch (fun x hx => hB x hc hx)]

theorem prepareSlot_patch {g : Cfg} {tag check : Bool} {reqSize size p : Nat} {v : BitVec 64} (h8 : size % 8 = 0) (hs : 16 ≤ size)
    (hP : ∀ pg, inPages p size pg → ¬ P pg) (hB : ∀ x, inRange p size x → ¬ B x) :
    Res.Rel (fun v v' => v' = v.patch P B ν) (prepareSlot g tag check reqSize size p v vm) (prepareSlot g tag check reqSize size p v (vm.patch P B ν)) := by
  have hc : ∀ pg, inPages (p + size - 8) 8 pg → ¬ P pg := fun pg hp => hP pg (by unfold inPages at *; omega)
  have hcb : ∀ x, g.slabCanary = true → inRange (p + size - 8) 8 x → ¬ B x := fun x _ hx => hB x (by unfold inRange at *; omega)
  unfold prepareSlot
  split
  · exact rfl
  · have htail : Res.Rel (fun v v' => v' = v.patch P B ν) (setCanary g tag v p size vm >>= fun vm => if tag = true then clearMem p size vm else .ok vm)
        (setCanary g tag v p size (vm.patch P B ν) >>= fun vm => if tag = true then clearMem p size vm else .ok vm) := by
      refine Res.Rel.bind (setCanary_patch hc hcb) ?_
      rintro a b - rfl
      split
      · exact clearMem_patch hP hB
      · exact rfl
    dsimp only
    cases check with
    | true =>
      simp only [if_true]
      have h0 : (size - g.canarySize) % 8 = 0 := by unfold Cfg.canarySize; split <;> omega
      rw [writeAfterFreeCheck_patch h0 (fun pg hp => hP pg (by unfold inPages at *; omega)) (fun x hx => hB x (by unfold inRange at *; omega))]
      exact Res.Rel.same fun _ _ => htail
    | false => exact htail

theorem protectSlab_patch {nz : Bool} {r : SysRes} {a n : Nat} (hP : ∀ pg, inPages a n pg → ¬ P pg) :
    Res.Rel (PatchR P B ν) (protectSlab nz r a n vm) (protectSlab nz r a n (vm.patch P B ν)) := by
  unfold protectSlab
  cases nz with
  | false => exact ⟨rfl, rfl⟩
  | true => exact memoryProtectRw_patch hP

theorem scrubSlot_patch {g : Cfg} {tag : Bool} {cls p : Nat} {v : BitVec 64} (hs : 16 ≤ g.slotSize cls)
    (hP : g.classSize cls ≠ 0 → ∀ pg, inPages p (g.slotSize cls) pg → ¬ P pg) (hB : g.classSize cls ≠ 0 → ∀ x, inRange p (g.slotSize cls) x → ¬ B x) :
    Res.Rel (fun v v' => v' = v.patch P B ν) (scrubSlot g tag cls v p vm) (scrubSlot g tag cls v p (vm.patch P B ν)) := by
  unfold scrubSlot
  split
  · exact rfl
  · rename_i hz
    have hP := hP hz
    have hB := hB hz
    rw [checkCanary_patch (fun pg hp => hP pg (by unfold inPages at *; omega)) (fun x _ hx => hB x (by unfold inRange at *; omega)),
      accessible_patch (fun pg hp => hP pg (by unfold inPages at *; omega))]
    refine Res.Rel.same fun _ _ => ?_
    split
    · exact clearMem_patch hP hB
    split
    · split
      · exact fill_patch fun x hx => hB x (by unfold inRange at *; omega)
      · trivial
    · exact rfl

end

end HM
