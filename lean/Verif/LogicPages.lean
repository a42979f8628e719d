import Verif.Logic
/-
System calls and pages.c.
-/
namespace HM

variable {ro : Ro} {m : Mode} {t : Nat} {F : Bad → Choice → World → Prop}

/-- The kernel refused some call for a reason other than lack of memory. -/
def SysOther (ch : Choice) : Prop := (∃ k, ch.sys k = .other) ∨ ch.growRemap = .other ∨ ch.trailUnmap = .other

/-- A fatal error is acceptable when the kernel misbehaves. -/
def FSys (F : Bad → Choice → World → Prop) : Prop := ∀ msg ch w, SysOther ch → F (.fatal msg) ch w

/-- `t` holds the pages in `S`, with protections `pr`. -/
def HeldP (t : Nat) (S : Nat → Prop) (pr : Nat → Prot) (w : World) : Prop :=
  ∀ pg, S pg → w.G.own pg = .held t ∧ w.σ.vm.prot pg = pr pg

/-- The pages in `S` are zero. -/
def ZeroP (S : Nat → Prop) (w : World) : Prop := ∀ x, S (x / PAGE) → w.σ.vm.mem x = 0#8

/-- `t` holds the pages in `S`. -/
def Held (t : Nat) (S : Nat → Prop) (w : World) : Prop := ∀ pg, S pg → w.G.own pg = .held t

theorem HeldP.held {S : Nat → Prop} {pr : Nat → Prot} {w : World} (h : HeldP t S pr w) : Held t S w := fun pg hp => (h pg hp).1

theorem HeldP.rely {S : Nat → Prop} {pr : Nat → Prot} {w w' : World} (hi : GInv ro w) (r : Rely m ro t w w') (h : HeldP t S pr w) :
    HeldP t S pr w' := fun pg hp => by
  have s := r.sameP hi
  obtain ⟨h1, h2⟩ := h pg hp
  exact ⟨(s.pages pg).mpr h1, (s.prot pg h1).trans h2⟩

theorem Held.rely {S : Nat → Prop} {w w' : World} (hi : GInv ro w) (r : Rely m ro t w w') (h : Held t S w) : Held t S w' :=
  fun pg hp => ((r.sameP hi).pages pg).mpr (h pg hp)

theorem ZeroP.rely {S : Nat → Prop} {w w' : World} (hi : GInv ro w) (r : Rely m ro t w w') (hh : Held t S w) (h : ZeroP S w) : ZeroP S w' :=
  fun x hx => ((r.sameP hi).mem x (hh _ hx)).trans (h x hx)

/-! ### Page arithmetic -/

theorem inPages_round' {a n g pg : Nat} (ha : a % PAGE = 0) (hg : g % PAGE = 0) : inPages a (n + g * 2) pg ↔ inPages a (pageUp n + 2 * g) pg := by
  unfold inPages pageUp; omega

theorem allPages_iff {a n : Nat} {f : Nat → Bool} : Vm.allPages a n f = true ↔ ∀ pg, inPages a n pg → f pg = true := by
  unfold Vm.allPages inPages
  rw [decide_eq_true_iff]
  constructor
  · intro h pg hp
    have := h (pg - a / PAGE) (by omega)
    rw [show a / PAGE + (pg - a / PAGE) = pg by omega] at this; exact this
  · intro h k hk
    exact h _ (by omega)

/-! ### System calls -/

/-- The world after unmapping. -/
def World.unmap (w : World) (a n : Nat) : World :=
  w.setVm (w.σ.vm.setProt a n .unmapped) fun pg => if inPages a n pg then .none else w.G.own pg

/-- The pages in `S` are held by `t` or unused. -/
def HeldN (t : Nat) (S : Nat → Prop) (w : World) : Prop := ∀ pg, S pg → w.G.own pg = .none ∨ w.G.own pg = .held t

theorem Held.heldN {S : Nat → Prop} {w : World} (h : Held t S w) : HeldN t S w := fun pg hp => Or.inr (h pg hp)

theorem HeldN.off {S : Nat → Prop} {w : World} (h : HeldN t S w) : ∀ pg, S pg → w.G.own pg ≠ .slab := fun pg hp e => by
  rcases h pg hp with h1 | h1 <;> (rw [h1] at e; cases e)

theorem Noise.prot {S : Nat → Prop} {w : World} {N : Cell → Prop} {ν : St} (hN : Noise ro t none w N ν)
    (h : ∀ pg, S pg → w.G.own pg ≠ .slab) : ∀ pg, S pg → ¬ N (.prot pg) := fun pg hp hn => h pg hp (hN.1 pg hn).1

theorem Noise.mem {S : Nat → Prop} {w : World} {N : Cell → Prop} {ν : St} (hN : Noise ro t none w N ν)
    (h : ∀ pg, S pg → w.G.own pg ≠ .slab) : ∀ x, S (x / PAGE) → ¬ N (.mem x) := fun x hp hn => h _ hp (hN.2 x hn).1

theorem unmap_step {a n : Nat} {w : World} (hi : GInv ro w) (hh : HeldN t (inPages a n) w) :
    VmStep t w (w.σ.vm.setProt a n .unmapped) fun pg => if inPages a n pg then .none else w.G.own pg := by
  refine ⟨fun pg => ?_, fun pg h1 h2 => ?_, fun x _ _ => rfl, fun pg hpg => ?_⟩
  · by_cases k : inPages a n pg
    · right; rw [if_pos k]; exact ⟨hh pg k, Or.inl rfl⟩
    · left; rw [if_neg k]
  · show (if inPages a n pg then _ else _) = _
    rw [if_neg fun k => (hh pg k).elim h1 h2]
  · by_cases k : inPages a n pg
    · simp only [if_pos k] at hpg; exact absurd rfl hpg
    · simp only [if_neg k] at hpg
      show (if inPages a n pg then _ else _) ≠ _
      rw [if_neg k]; exact hi.mapped pg hpg

theorem unmap_guar {a n : Nat} {w : World} (hro : RoOk ro) (hi : GInv ro w) (hh : HeldN t (inPages a n) w) : Guar ro t w (w.unmap a n) :=
  hi.vmStep_trans hro (unmap_step hi hh)

theorem vmStep_at {w : World} {vm' : Vm} {own' : Nat → Owner} (hro : RoOk ro) (hi : GInv ro w) (s : VmStep t w vm' own') :
    At m ro t noBlock noFree 0 w (w.setVm vm' own') :=
  At.ofGuar (hi.vmStep_trans hro s) (fun q _ => (hi.vmStep_blocks hro s (w.G.blk q)).keep rfl) (fun _ _ => Nat.le_refl _) (Nat.le_refl _) (Nat.le_refl _)

theorem unmap_heldP {a n : Nat} {w : World} {S : Nat → Prop} {pr : Nat → Prot} (h : HeldP t S pr w) :
    HeldP t (fun pg => S pg ∧ ¬ inPages a n pg) pr (w.unmap a n) := by
  rintro pg ⟨h1, h2⟩
  obtain ⟨h3, h4⟩ := h pg h1
  refine ⟨?_, ?_⟩
  · show (if inPages a n pg then _ else _) = _; rw [if_neg h2]; exact h3
  · show (if inPages a n pg then _ else _) = _; rw [if_neg h2]; exact h4

theorem WP.sysUnmap {a n : Nat} {Q : Bool → Tl → World → Prop} {tl : Tl} {w : World} (hro : RoOk ro) (hF : FSys F) (hi : GInv ro w)
    (ha : a % PAGE = 0) (hn : 0 < n) (hh : HeldN t (inPages a n) w)
    (h1 : (w.G.calm = true → False) → ∀ w2, Rely m ro t w w2 → Q true { tl with errno := ENOMEM } w2)
    (h2 : ∀ w2, Rely m ro t (w.unmap a n) w2 → Q false tl w2) : WP m ro t F (HM.sysUnmap a n) Q tl w := by
  refine WP.sysCall (fun ch N ν hN => memoryUnmap_patch (hN.prot hh.off)) fun ch hf => ?_
  unfold memoryUnmap
  rw [if_neg (by omega)]
  cases hs : ch.sys 0 with
  | other => exact hF _ _ _ (Or.inl ⟨0, hs⟩)
  | enomem =>
    refine ⟨w.G, (Trans.refl hi).quiet, fun w2 hr e he _ => ?_⟩
    rw [he rfl]; exact h1 (fun e => (hf.2.2.1 e).2 0 hs) w2 hr
  | ok =>
    refine ⟨_, (unmap_guar hro hi hh).quiet, fun w2 hr e _ he => ?_⟩
    rw [he rfl rfl]; exact h2 w2 hr

theorem WP.sysUnmapTrail {a n : Nat} {Q : Bool → Tl → World → Prop} {tl : Tl} {w : World} (hro : RoOk ro) (hF : FSys F) (hi : GInv ro w)
    (ha : a % PAGE = 0) (hn : 0 < n) (hh : HeldN t (inPages a n) w)
    (h1 : (m = .conc → False) → (w.G.calm = true → False) → ∀ w2, Rely m ro t w w2 → Q true { tl with errno := ENOMEM } w2)
    (h2 : ∀ w2, Rely m ro t (w.unmap a n) w2 → Q false tl w2) : WP m ro t F (HM.sysUnmapTrail a n) Q tl w := by
  refine WP.sysCall (fun ch N ν hN => memoryUnmap_patch (hN.prot hh.off)) fun ch hf => ?_
  unfold memoryUnmap
  rw [if_neg (by omega)]
  cases hs : ch.trailUnmap with
  | other => exact hF _ _ _ (Or.inr (Or.inr hs))
  | enomem =>
    refine ⟨w.G, (Trans.refl hi).quiet, fun w2 hr e he _ => ?_⟩
    rw [he rfl]
    exact h1 (fun e => hf.2.1 e hs) (fun e => (hf.2.2.1 e).1 hs) w2 hr
  | ok =>
    refine ⟨_, (unmap_guar hro hi hh).quiet, fun w2 hr e _ he => ?_⟩
    rw [he rfl rfl]; exact h2 w2 hr

/-- The world after making pages accessible. -/
def World.protRw (w : World) (a n : Nat) : World := w.setVm (w.σ.vm.setProt a n .rw) w.G.own

theorem protRw_step {a n : Nat} {w : World} (hi : GInv ro w) (hh : Held t (inPages a n) w) :
    VmStep t w (w.σ.vm.setProt a n .rw) w.G.own := by
  refine ⟨fun pg => Or.inl rfl, fun pg h1 h2 => ?_, fun x _ _ => rfl, fun pg hpg => ?_⟩
  · show (if inPages a n pg then _ else _) = _
    rw [if_neg fun k => h2 (hh pg k)]
  · show (if inPages a n pg then _ else _) ≠ _
    split
    · simp
    · exact hi.mapped pg hpg

theorem protRw_guar {a n : Nat} {w : World} (hro : RoOk ro) (hi : GInv ro w) (hh : Held t (inPages a n) w) : Guar ro t w (w.protRw a n) :=
  hi.vmStep_trans hro (protRw_step hi hh)

theorem protRw_heldP {a n : Nat} {w : World} {S : Nat → Prop} {pr : Nat → Prot} (h : HeldP t S pr w) :
    HeldP t S (fun pg => if inPages a n pg then .rw else pr pg) (w.protRw a n) := by
  intro pg hp
  obtain ⟨h3, h4⟩ := h pg hp
  refine ⟨h3, ?_⟩
  show (if inPages a n pg then _ else _) = _
  rw [h4]

theorem WP.sysProtect {a n : Nat} {Q : Bool → Tl → World → Prop} {tl : Tl} {w : World} (hro : RoOk ro) (hF : FSys F) (hi : GInv ro w)
    (ha : a % PAGE = 0) (hh : Held t (inPages a n) w)
    (h1 : (w.G.calm = true → False) → ∀ w2, Rely m ro t w w2 → Q true { tl with errno := ENOMEM } w2)
    (h2 : ∀ w2, Rely m ro t (w.protRw a n) w2 → Q false tl w2) : WP m ro t F (HM.sysProtect a n) Q tl w := by
  refine WP.sysCall (fun ch N ν hN => memoryProtectRw_patch (hN.prot hh.heldN.off)) fun ch hf => ?_
  unfold memoryProtectRw
  rw [if_neg (by omega)]
  cases hs : ch.sys 0 with
  | other => exact hF _ _ _ (Or.inl ⟨0, hs⟩)
  | enomem =>
    refine ⟨w.G, (Trans.refl hi).quiet, fun w2 hr e he _ => ?_⟩
    rw [he rfl]; exact h1 (fun e => (hf.2.2.1 e).2 0 hs) w2 hr
  | ok =>
    have : Vm.allPages a n (fun pg => w.σ.vm.prot pg != .unmapped) = true := by
      rw [allPages_iff]
      intro pg hp
      have := hi.mapped pg (by rw [hh pg hp]; simp)
      simpa using this
    simp only
    rw [if_pos this]
    refine ⟨_, (protRw_guar hro hi hh).quiet, fun w2 hr e _ he => ?_⟩
    rw [he (by trivial) (by trivial)]; exact h2 w2 hr

/-- The world after mapping fresh inaccessible zero pages over pages held by `t`. -/
def World.mapFixed (w : World) (a n : Nat) : World := w.setVm ((w.σ.vm.setProt a n .none).zeroPages a n) w.G.own

theorem mapFixed_step {a n : Nat} {w : World} (hi : GInv ro w) (hh : Held t (inPages a n) w) :
    VmStep t w ((w.σ.vm.setProt a n .none).zeroPages a n) w.G.own := by
  refine ⟨fun pg => Or.inl rfl, fun pg h1 h2 => ?_, fun x _ h2 => ?_, fun pg hpg => ?_⟩
  · show (if inPages a n pg then _ else _) = _
    rw [if_neg fun k => h2 (hh pg k)]
  · show (if inPages a n (x / PAGE) then _ else _) = _
    rw [if_neg fun k => h2 (hh _ k)]; rfl
  · show (if inPages a n pg then _ else _) ≠ _
    split
    · simp
    · exact hi.mapped pg hpg

theorem WP.sysMapFixed {a n : Nat} {Q : Bool → Tl → World → Prop} {tl : Tl} {w : World} (hro : RoOk ro) (hF : FSys F) (hi : GInv ro w)
    (ha : a % PAGE = 0) (hn : 0 < n) (hh : Held t (inPages a n) w)
    (h1 : (w.G.calm = true → False) → ∀ w2, Rely m ro t w w2 → Q true { tl with errno := ENOMEM } w2)
    (h2 : ∀ w2 e, Rely m ro t (w.mapFixed a n) w2 → Q false { tl with errno := e } w2) : WP m ro t F (HM.sysMapFixed a n) Q tl w := by
  refine WP.sysCall (fun ch N ν hN => memoryMapFixed_patch (hN.prot hh.heldN.off) (hN.mem hh.heldN.off)) fun ch hf => ?_
  unfold memoryMapFixed
  rw [if_neg (by omega)]
  cases hs : ch.sys 0 with
  | other => exact hF _ _ _ (Or.inl ⟨0, hs⟩)
  | enomem =>
    refine ⟨w.G, (Trans.refl hi).quiet, fun w2 hr e he _ => ?_⟩
    rw [he rfl]; exact h1 (fun e => (hf.2.2.1 e).2 0 hs) w2 hr
  | ok =>
    refine ⟨_, (hi.vmStep_trans hro (mapFixed_step hi hh)).quiet, fun w2 hr e _ he => ?_⟩
    exact h2 w2 e hr

/-- The world after zeroing pages held by `t`. -/
def World.purge (w : World) (a n : Nat) : World := w.setVm (w.σ.vm.zeroPages a n) w.G.own

theorem purge_step {a n : Nat} {w : World} (hi : GInv ro w) (hh : Held t (inPages a n) w) :
    VmStep t w (w.σ.vm.zeroPages a n) w.G.own := by
  refine ⟨fun pg => Or.inl rfl, fun pg h1 h2 => rfl, fun x _ h2 => ?_, fun pg hpg => hi.mapped pg hpg⟩
  show (if inPages a n (x / PAGE) then _ else _) = _
  rw [if_neg fun k => h2 (hh _ k)]

theorem purge_local {a n : Nat} {w : World} {N : Cell → Prop} {ν : St} {ch : Choice} (hN : Noise ro t none w N ν) (hh : ∀ pg, inPages a n pg → w.G.own pg ≠ .slab) :
    Res.Rel (PatchR (fun pg => N (.prot pg)) (fun x => N (.mem x)) ν.vm)
      (match memoryPurge w.σ.vm (ch.sys 0) a n with
        | .ok vm => .ok (vm, decide (ch.sys 0 ≠ .ok))
        | .fatal m => .fatal m
        | .segv => .segv
        | .ub w => .ub w
        | .hang => .hang : Res (Vm × Bool))
      (match memoryPurge (w.σ.vm.patch (fun pg => N (.prot pg)) (fun x => N (.mem x)) ν.vm) (ch.sys 0) a n with
        | .ok vm => .ok (vm, decide (ch.sys 0 ≠ .ok))
        | .fatal m => .fatal m
        | .segv => .segv
        | .ub w => .ub w
        | .hang => .hang) := by
  have := memoryPurge_patch (P := fun pg => N (.prot pg)) (ν := ν.vm) (vm := w.σ.vm) (r := ch.sys 0) (hN.mem hh)
  revert this
  cases memoryPurge w.σ.vm (ch.sys 0) a n <;>
    cases memoryPurge (w.σ.vm.patch (fun pg => N (.prot pg)) (fun x => N (.mem x)) ν.vm) (ch.sys 0) a n <;> intro this <;>
    first | exact this | exact ⟨this, rfl⟩

theorem WP.sysPurge {a n : Nat} {Q : Bool → Tl → World → Prop} {tl : Tl} {w : World} (hro : RoOk ro) (hF : FSys F) (hi : GInv ro w)
    (ha : a % PAGE = 0) (hh : Held t (inPages a n) w)
    (h1 : ∀ w2, Rely m ro t w w2 → Q true { tl with errno := ENOMEM } w2)
    (h2 : ∀ w2, Rely m ro t (w.purge a n) w2 → Q false tl w2) : WP m ro t F (HM.sysPurge a n) Q tl w := by
  refine WP.sysCall (fun ch N ν hN => purge_local hN hh.heldN.off) fun ch hf => ?_
  unfold memoryPurge
  rw [if_neg (by omega)]
  cases hs : ch.sys 0 with
  | other => exact hF _ _ _ (Or.inl ⟨0, hs⟩)
  | enomem =>
    refine ⟨w.G, (Trans.refl hi).quiet, fun w2 hr e he _ => ?_⟩
    rw [he (by simp)]; exact h1 w2 hr
  | ok =>
    refine ⟨_, (hi.vmStep_trans hro (purge_step hi hh)).quiet, fun w2 hr e _ he => ?_⟩
    rw [he (by simp) rfl]; exact h2 w2 hr

/-- The world after a new mapping. -/
def World.map (w : World) (t a n : Nat) : World :=
  w.setVm ((w.σ.vm.setProt a n .none).zeroPages a n) fun pg => if inPages a n pg then .held t else w.G.own pg

theorem map_step {a n : Nat} {w : World} (hi : GInv ro w) (hu : ∀ pg, inPages a n pg → w.G.own pg = .none) :
    VmStep t w ((w.σ.vm.setProt a n .none).zeroPages a n) fun pg => if inPages a n pg then .held t else w.G.own pg := by
  refine ⟨fun pg => ?_, fun pg h1 h2 => ?_, fun x h1 h2 => ?_, fun pg hpg => ?_⟩
  · by_cases k : inPages a n pg
    · right; rw [if_pos k]; exact ⟨Or.inl (hu pg k), Or.inr rfl⟩
    · left; rw [if_neg k]
  · show (if inPages a n pg then _ else _) = _
    rw [if_neg fun k => h1 (hu pg k)]
  · show (if inPages a n (x / PAGE) then _ else _) = _
    rw [if_neg fun k => h1 (hu _ k)]; rfl
  · show (if inPages a n pg then _ else _) ≠ _
    by_cases k : inPages a n pg
    · rw [if_pos k]; simp
    · rw [if_neg k]; simp only [if_neg k] at hpg; exact hi.mapped pg hpg

theorem map_heldP {a n : Nat} {w : World} : HeldP t (inPages a n) (fun _ => .none) (w.map t a n) := by
  intro pg hp
  refine ⟨?_, ?_⟩
  · show (if inPages a n pg then _ else _) = _; rw [if_pos hp]
  · show (if inPages a n pg then _ else _) = _; rw [if_pos hp]

theorem map_zeroP {a n : Nat} {w : World} : ZeroP (inPages a n) (w.map t a n) := by
  intro x hx
  show (if inPages a n (x / PAGE) then _ else _) = _; rw [if_pos hx]

theorem map_local {n : Nat} {tl : Tl} {w : World} (hi : GInv ro w) :
    Local ro t none (fun ch σ tl =>
      match memoryMap σ.vm (ch.sys 0) ch.addr n with
      | .ok (vm, some a) => .ok ({ σ with vm := vm }, { tl with errno := ch.label 0 tl.errno }, some a)
      | .ok (vm, none) => .ok ({ σ with vm := vm }, { tl with errno := ENOMEM }, none)
      | .fatal m => .fatal m
      | .segv => .segv
      | .ub w => .ub w
      | .hang => .hang) tl w := by
  refine Local.of fun ch _ N ν hN => ?_
  have := memoryMap_patch (P := fun pg => N (.prot pg)) (B := fun x => N (.mem x)) (ν := ν.vm) (vm := w.σ.vm) (r := ch.sys 0) (a := ch.addr) (n := n)
    (fun pg h => (hN.1 pg h).2.1) (fun pg h => hi.mapped pg (by rw [(hN.1 pg h).1]; simp)) (fun x h => hi.mapped _ (by rw [(hN.2 x h).1]; simp))
  rw [show (w.σ.patch N ν).vm = w.σ.vm.patch (fun pg => N (.prot pg)) (fun x => N (.mem x)) ν.vm from rfl]
  revert this
  cases memoryMap w.σ.vm (ch.sys 0) ch.addr n <;>
    cases memoryMap (w.σ.vm.patch (fun pg => N (.prot pg)) (fun x => N (.mem x)) ν.vm) (ch.sys 0) ch.addr n <;> intro this <;>
    first | exact this | exact this.elim | skip
  rename_i a b
  obtain ⟨v, r⟩ := a
  obtain ⟨v', r'⟩ := b
  obtain ⟨h1, h2⟩ := this
  simp only at h1 h2
  subst h1 h2
  cases r' <;> exact rfl

theorem WP.sysMap {n : Nat} {Q : Option Nat → Tl → World → Prop} {tl : Tl} {w : World} (hro : RoOk ro) (hF : FSys F) (hi : GInv ro w)
    (hn : 0 < n)
    (h1 : ∀ w2, Rely m ro t w w2 → Q none { tl with errno := ENOMEM } w2)
    (h2 : ∀ a e w1 w2, a % PAGE = 0 → PAGE ≤ a → a + n ≤ ADDR_END → (∀ pg, inPages a n pg → w.G.own pg = .none) → w1 = w.map t a n →
      Guar ro t w w1 → Rely m ro t w1 w2 → Q (some a) { tl with errno := e } w2) : WP m ro t F (HM.sysMap n) Q tl w := by
  refine WP.one (fun _ => map_local hi) fun ch hf => ?_
  unfold memoryMap
  cases hs : ch.sys 0 with
  | other => exact hF _ _ _ (Or.inl ⟨0, hs⟩)
  | enomem => exact ⟨w.G, (Trans.refl hi).quiet, fun w2 hr => h1 w2 hr⟩
  | ok =>
    simp only
    rw [if_neg (by omega)]
    by_cases hc : ch.addr % PAGE = 0 ∧ PAGE ≤ ch.addr ∧ ch.addr + n ≤ ADDR_END ∧
        Vm.allPages ch.addr n (fun pg => w.σ.vm.prot pg == .unmapped) = true
    · rw [if_pos hc]
      obtain ⟨c1, c2, c3, c4⟩ := hc
      rw [allPages_iff] at c4
      have hu : ∀ pg, inPages ch.addr n pg → w.G.own pg = .none := by
        intro pg hp
        by_contra hne
        have := hi.mapped pg hne
        have h4 := c4 pg hp
        simp only [beq_iff_eq] at h4
        exact this h4
      have hg := hi.vmStep_trans hro (map_step (t := t) hi hu)
      exact ⟨_, hg.quiet, fun w2 hr => h2 ch.addr _ _ w2 c1 c2 c3 hu rfl hg hr⟩
    · rw [if_neg hc]
      exact ⟨w.G, (Trans.refl hi).quiet, fun w2 hr => h1 w2 hr⟩

end HM
