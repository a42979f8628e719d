import Verif.Canary
import Verif.SmallAllocSpec
/-
The bookkeeping stays inside of the memory that is set aside for it: an invariant of every action of every program.
-/
namespace HM

variable {M : Nat}

/-- The size class has made at most `M` entries of the array of its slabs accessible, and the number of slabs it has handed out (with guard slabs) goes
beyond them by at most a guard slab (h_malloc.c:290-291, 313-339). -/
def SC.Fit (M : Nat) (c : SC) : Prop := c.metaAllocated ≤ M ∧ c.metaCount ≤ c.metaAllocated + 1

/-- All size classes fit, and the table of large blocks has its initial size or fits (h_malloc.c:925-931,
1028). -/
def St.Fit (g : Cfg) (σ : St) : Prop := (σ.rt.total = 128 ∨ σ.rt.total ≤ g.maxRegionTable) ∧ ∀ a c, (σ.sc a c).Fit (g.metaMax c)

theorem SC.Fit.upd {c : SC} (h : c.Fit M) {m : Nat} {f : Slab → Slab} : (c.upd m f).Fit M := h

theorem SC.Fit.setPrev {c : SC} (h : c.Fit M) (l v : Option Nat) : (c.setPrev l v).Fit M := by
  cases l with
  | none => exact h
  | some m => exact SC.Fit.upd (f := fun s => { s with prev := v }) h

theorem SC.Fit.setCanaryValue {c : SC} (h : c.Fit M) (g : Cfg) (ch : Choice) (m : Nat) : (c.setCanaryValue g ch m).Fit M := by
  unfold SC.setCanaryValue
  split
  · exact h.upd
  · exact h

theorem SC.Fit.statsAlloc {c : SC} (h : c.Fit M) (g : Cfg) (n : Nat) : (c.statsAlloc g n).Fit M := by unfold SC.statsAlloc; split <;> exact h
theorem SC.Fit.statsDealloc {c : SC} (h : c.Fit M) (g : Cfg) (n : Nat) : (c.statsDealloc g n).Fit M := by unfold SC.statsDealloc; split <;> exact h
theorem SC.Fit.statsSlabAlloc {c : SC} (h : c.Fit M) (g : Cfg) (n : Nat) : (c.statsSlabAlloc g n).Fit M := by unfold SC.statsSlabAlloc; split <;> exact h
theorem SC.Fit.statsSlabDealloc {c : SC} (h : c.Fit M) (g : Cfg) (n : Nat) : (c.statsSlabDealloc g n).Fit M := by unfold SC.statsSlabDealloc; split <;> exact h

theorem SC.Fit.takeSlot {g : Cfg} {slots m s : Nat} {ch : Choice} {c c' : SC} (h : c.Fit M) (ht : HM.takeSlot g slots ch c m = .ok (s, c')) : c'.Fit M := by
  unfold HM.takeSlot at ht
  split at ht
  · split at ht <;> cases ht
  · cases ht; exact h.upd

theorem SC.Fit.takeFreeHead {c : SC} (h : c.Fit M) (slots m : Nat) : (c.takeFreeHead slots m).Fit M := by
  unfold SC.takeFreeHead
  simp only
  split <;> exact h

theorem SC.Fit.growMetadata {g : Cfg} {cls : Nat} {ch : Choice} {c c' : SC} (h : c.Fit (g.metaMax cls)) (hg : HM.growMetadata g cls ch c = .ok (some c')) :
    c'.Fit (g.metaMax cls) ∧ c'.metaCount < c'.metaAllocated := by
  unfold HM.growMetadata at hg
  split at hg
  · split at hg
    · cases hg
    · revert hg
      cases ch.sys 0 with
      | ok =>
        intro hg; cases hg
        have h1 := sizeof_bounds g
        obtain ⟨h2, h3⟩ := h
        refine ⟨⟨?_, ?_⟩, ?_⟩
        · show min _ _ ≤ _; omega
        · show c.metaCount ≤ min _ _ + 1; omega
        · show c.metaCount < min _ _; omega
      | _ => intro hg; cases hg
  · cases hg; exact ⟨h, by omega⟩

theorem SC.Fit.allocMetadata {g : Cfg} {base cls : Nat} {nz : Bool} {ch : Choice} {c c' : SC} {vm vm' : Vm} {e e' : Errno} {mo : Option Nat} (h : c.Fit (g.metaMax cls))
    (hg : HM.allocMetadata g base cls nz ch c vm e = .ok (mo, c', vm', e')) : c'.Fit (g.metaMax cls) := by
  unfold HM.allocMetadata at hg
  obtain ⟨o, h1, hg⟩ := bind_ok hg
  cases o with
  | none => cases hg; exact h
  | some c1 =>
    obtain ⟨h1, h2⟩ := h.growMetadata h1
    obtain ⟨⟨vm1, failed⟩, _, hg⟩ := bind_ok hg
    simp only at hg
    split at hg
    · cases hg; exact h1
    · cases hg
      unfold SC.bumpMetadata
      split
      · exact ⟨h1.1, by show c1.metaCount + 2 ≤ c1.metaAllocated + 1; omega⟩
      · exact ⟨h1.1, by show c1.metaCount + 1 ≤ c1.metaAllocated + 1; omega⟩

theorem SC.Fit.allocateSmall {g : Cfg} {base cls n : Nat} {ch : Choice} {c c' : SC} {vm vm' : Vm} {e e' : Errno} {o : Option Nat} (h : c.Fit (g.metaMax cls))
    (hr : HM.allocateSmall g base cls n ch c vm e = .ok (o, c', vm', e')) : c'.Fit (g.metaMax cls) := by
  unfold HM.allocateSmall at hr
  split at hr
  · unfold allocFromPartial at hr
    obtain ⟨⟨s, c1⟩, h1, hr⟩ := bind_ok hr
    have h1 := h.takeSlot h1
    obtain ⟨vm1, _, hr⟩ := bind_ok hr
    cases hr
    refine SC.Fit.statsAlloc ?_ _ _
    split
    · exact SC.Fit.setPrev (c := { c1 with partialHead := (c1.slabs _).next }) h1 _ _
    · exact h1
  split at hr
  · unfold allocFromEmpty at hr
    obtain ⟨⟨s, c1⟩, h1, hr⟩ := bind_ok hr
    obtain ⟨vm1, _, hr⟩ := bind_ok hr
    cases hr
    refine SC.Fit.statsAlloc (SC.Fit.takeSlot ?_ h1) _ _
    exact h
  split at hr
  · unfold allocFromFree at hr
    obtain ⟨⟨vm1, failed⟩, _, hr⟩ := bind_ok hr
    have h1 := h.setCanaryValue g ch
    simp only at hr
    split at hr
    · cases hr; exact h1 _
    · obtain ⟨⟨s, c1⟩, h2, hr⟩ := bind_ok hr
      obtain ⟨vm1, _, hr⟩ := bind_ok hr
      cases hr
      exact (SC.Fit.statsSlabAlloc (((h1 _).takeFreeHead _ _).takeSlot h2) _ _).statsAlloc _ _
  · unfold allocFromNew at hr
    obtain ⟨⟨mo, c1, vm1, e1⟩, h1, hr⟩ := bind_ok hr
    have h5 := h.allocMetadata h1
    cases mo with
    | none => cases hr; exact h5
    | some m =>
      obtain ⟨⟨s, c2⟩, h2, hr⟩ := bind_ok hr
      obtain ⟨vm1, _, hr⟩ := bind_ok hr
      cases hr
      have h3 := h5.setCanaryValue g ch m
      exact (SC.Fit.statsSlabAlloc (SC.Fit.takeSlot (c := { (c1.setCanaryValue g ch m) with partialHead := if g.slots cls > 1 then some m else none }) h3 h2) _ _).statsAlloc _ _

theorem SC.Fit.enqueueFreeSlab {g : Cfg} {draw m : Nat} {c c' : SC} (h : c.Fit M) (hr : HM.enqueueFreeSlab g draw c m = .ok c') : c'.Fit M := by
  unfold HM.enqueueFreeSlab at hr
  split at hr
  · cases hr
  · have h1 : (c.upd m fun s => { s with next := none }).Fit M := h.upd
    simp only at hr
    split at hr
    · cases hr; exact h1
    · cases hr
      cases (c.upd m fun s => { s with next := none }).freeTail <;> exact h1

theorem SC.Fit.quarantineSlot {g : Cfg} {base cls p m s : Nat} {ch : Choice} {c c' : SC} {o : Option (Nat × Nat)} (h : c.Fit M)
    (hr : HM.quarantineSlot g base cls ch c p m s = .ok (c', o)) : c'.Fit M := by
  unfold HM.quarantineSlot at hr
  split at hr
  · cases hr; exact h
  split at hr
  · cases hr
  obtain ⟨⟨c1, p1⟩, h1, hr⟩ := bind_ok hr
  have h1 : c1.Fit M := by
    unfold pushRandom at h1
    have h0 : (c.setQuar m s).Fit M := h.upd
    split at h1
    · cases h1; exact h0
    · simp only at h1
      split at h1
      · cases h1
      · cases h1; exact h0
  simp only at hr
  split at hr
  · cases hr; exact h1
  obtain ⟨⟨c2, p2⟩, h2, hr⟩ := bind_ok hr
  have h2 : c2.Fit M := by
    unfold pushQueue at h2
    split at h2
    · cases h2; exact h1
    · simp only at h2
      split at h2
      · cases h2
      · cases h2; exact h1
  simp only at hr
  split at hr
  · cases hr; exact h2
  obtain ⟨⟨c3, m3, s3⟩, h3, hr⟩ := bind_ok hr
  cases hr
  unfold leaveQuarantine at h3
  obtain ⟨m4, _, h3⟩ := bind_ok h3
  simp only at h3
  split at h3
  · cases h3
  · cases h3; exact SC.Fit.upd (c := c2) (f := fun s => { s with qbitmap := s.qbitmap.clear _ }) h2

theorem SC.Fit.cacheSlab {c : SC} (h : c.Fit M) (g : Cfg) (cls m : Nat) : (c.cacheSlab g cls m).Fit M :=
  SC.Fit.upd (c := c) h (m := m) (f := fun s => { s with next := c.emptyHead })

theorem SC.Fit.unlinkPartial {c : SC} (h : c.Fit M) (m : Nat) : (c.unlinkPartial m).Fit M := by
  unfold SC.unlinkPartial
  refine SC.Fit.upd (SC.Fit.setPrev ?_ _ _)
  split
  · exact h.upd
  · exact h

theorem SC.Fit.releaseSlot {g : Cfg} {base cls m s : Nat} {ch : Choice} {c c' : SC} {vm vm' : Vm} {e e' : Errno} (h : c.Fit M)
    (hr : HM.releaseSlot g base cls ch c vm e m s = .ok (c', vm', e')) : c'.Fit M := by
  unfold HM.releaseSlot at hr
  have h1 : ((c.linkPartial (g.slots cls) m).clearUsed m s).Fit M := by
    refine SC.Fit.upd ?_
    unfold SC.linkPartial
    split
    · exact SC.Fit.setPrev (c := c.upd m fun s => { s with next := c.partialHead, prev := none }) (h.upd) _ _
    · exact h
  simp only at hr
  split at hr
  · unfold retireSlab at hr
    simp only at hr
    have h2 := h1.unlinkPartial m
    split at hr
    · obtain ⟨⟨vm1, failed⟩, _, hr⟩ := bind_ok hr
      simp only at hr
      split at hr
      · obtain ⟨vm2, _, hr⟩ := bind_ok hr
        cases hr; exact h2.cacheSlab _ _ _
      · obtain ⟨c2, h3, hr⟩ := bind_ok hr
        cases hr; exact (h2.statsSlabDealloc _ _).enqueueFreeSlab h3
    · cases hr; exact h2.cacheSlab _ _ _
  · cases hr; exact h1

theorem SC.Fit.deallocateSmall {g : Cfg} {base cls p : Nat} {x : Option Nat} {ch : Choice} {c c' : SC} {vm vm' : Vm} {e e' : Errno} (h : c.Fit (g.metaMax cls))
    (hr : HM.deallocateSmall g base cls p x ch c vm e = .ok (c', vm', e')) : c'.Fit (g.metaMax cls) := by
  unfold HM.deallocateSmall at hr
  split at hr
  · cases hr
  obtain ⟨⟨m, s⟩, _, hr⟩ := bind_ok hr
  obtain ⟨vm1, _, hr⟩ := bind_ok hr
  obtain ⟨⟨c1, o⟩, h1, hr⟩ := bind_ok hr
  have h2 := (h.statsDealloc g _).quarantineSlot h1
  cases o with
  | none => cases hr; exact h2
  | some q => exact h2.releaseSlot hr

theorem SC.Fit.trimLoop {g : Cfg} {base cls : Nat} {ch : Choice} : ∀ {fuel k k' : Nat} {it it' : Option Nat} {b b' : Bool} {c c' : SC} {vm vm' : Vm} {e e' : Errno}, c.Fit M →
    HM.trimLoop g base cls ch fuel k it b c vm e = .ok (k', it', b', c', vm', e') → c'.Fit M := by
  intro fuel
  induction fuel with
  | zero => intro k k' it it' b b' c c' vm vm' e e' h hr; unfold HM.trimLoop at hr; cases hr
  | succ n ih =>
    intro k k' it it' b b' c c' vm vm' e e' h hr
    cases it with
    | none => unfold HM.trimLoop at hr; cases hr; exact h
    | some i =>
      unfold HM.trimLoop at hr
      obtain ⟨⟨vm1, failed⟩, _, hr⟩ := bind_ok hr
      simp only at hr
      split at hr
      · cases hr; exact h
      · obtain ⟨c1, h1, hr⟩ := bind_ok hr
        refine ih (SC.Fit.enqueueFreeSlab ?_ h1) hr
        exact h.statsSlabDealloc g _

theorem SC.Fit.trimClass {g : Cfg} {base cls : Nat} {ch : Choice} {b : Bool} {c c' : SC} {vm vm' : Vm} {e e' : Errno} (h : c.Fit M)
    (hr : HM.trimClass g base cls ch c vm e = .ok (b, c', vm', e')) : c'.Fit M := by
  unfold HM.trimClass at hr
  obtain ⟨⟨k, it, b1, c1, vm1, e1⟩, h1, hr⟩ := bind_ok hr
  obtain ⟨⟨vm2, e2⟩, _, hr⟩ := bind_ok hr
  cases hr
  exact (h.trimLoop h1 : c1.Fit M)

theorem St.Fit.set {g : Cfg} {σ : St} (h : σ.Fit g) {a c : Nat} {x : SC} (hx : x.Fit (g.metaMax c)) (vm : Vm) :
    St.Fit g { σ with vm := vm, sc := fun b k => if b = a ∧ k = c then x else σ.sc b k } := by
  refine ⟨h.1, fun b k => ?_⟩
  show (if b = a ∧ k = c then x else σ.sc b k).Fit _
  split
  · rename_i e; rw [e.2]; exact hx
  · exact h.2 b k

/-! ### The programs -/

/-- The table of large blocks grows to its limit at most. -/
theorem regionsInsert_total {hash : Nat → Nat} {N : Nat} {pr rm : Bool} {t t' : RegTable} {r : RegionMeta} (h : regionsInsert hash N pr rm t r = .ok (some t'))
    (hN : t.total = 128 ∨ t.total ≤ N) : t'.total = 128 ∨ t'.total ≤ N := by
  have key : ∀ t1 : RegTable, t1.total = 128 ∨ t1.total ≤ N →
      (match tableInsert hash t1.tab t1.total r with
        | none => Res.hang
        | some tab => Res.ok (some { t1.setTab tab with free := t1.free - 1 })) = Res.ok (some t') → t'.total = 128 ∨ t'.total ≤ N := by
    intro t1 h1 h2
    split at h2
    · cases h2
    · cases h2; exact h1
  unfold regionsInsert at h
  simp only at h
  split at h
  · obtain ⟨o, h1, h⟩ := bind_ok h
    cases o with
    | none => cases h
    | some t1 =>
      refine key t1 ?_ h
      unfold regionsGrow at h1
      split at h1
      · cases h1
      · simp only at h1
        split at h1
        · cases h1
        · split at h1
          · cases h1
          · split at h1
            · cases h1
            · cases h1
              right
              show t.total * 2 ≤ N
              omega
  · exact key t hN h

theorem regionsDelete_total {hash : Nat → Nat} {N i : Nat} {t t' : RegTable} (h : regionsDelete hash t i = .ok t')
    (hN : t.total = 128 ∨ t.total ≤ N) : t'.total = 128 ∨ t'.total ≤ N := by
  unfold regionsDelete at h
  split at h
  · cases h
  · cases h; exact hN

namespace Fit

variable {g : Cfg}

theorem setErrno (e : Errno) : (HM.setErrno e).Keeps (St.Fit g) := Keeps.one fun _ _ _ _ _ _ h e => by cases e; exact h
theorem getErrno : HM.getErrno.Keeps (St.Fit g) := Keeps.one fun _ _ _ _ _ _ h e => by cases e; exact h
theorem unsealMeta : HM.unsealMeta.Keeps (St.Fit g) := Keeps.one fun _ _ _ _ _ _ h e => by cases e; exact h
theorem sealMeta : HM.sealMeta.Keeps (St.Fit g) := Keeps.one fun _ _ _ _ _ _ h e => by cases e; exact h
unseal Prog.Keeps in
theorem die {α : Type} (m : String) : (HM.die m : Prog α).Keeps (St.Fit g) := by
  unfold HM.die
  exact ⟨fun _ _ _ _ _ _ _ e => (by cases e), fun b => b.elim⟩



theorem sysMap (n : Nat) : (HM.sysMap n).Keeps (St.Fit g) := Keeps.one fun ch σ tl σ' tl' b h hf => by
  split at hf <;> first | (cases hf; exact h) | cases hf

theorem sysCall (l : Bool) (f : Choice → Vm → Res (Vm × Bool)) : (HM.sysCall l f).Keeps (St.Fit g) := Keeps.one fun ch σ tl σ' tl' b h hf => by
  split at hf <;> first | (cases hf; exact h) | cases hf

theorem memCopy (d s n : Nat) : (HM.memCopy d s n).Keeps (St.Fit g) := Keeps.one fun ch σ tl σ' tl' b h hf => by
  split at hf <;> first | (cases hf; exact h) | cases hf

theorem memZero (p n : Nat) : (HM.memZero p n).Keeps (St.Fit g) := Keeps.one fun ch σ tl σ' tl' b h hf => by
  split at hf <;> first | (cases hf; exact h) | cases hf

theorem drawGuard (ro : Ro) (n : Nat) : (HM.drawGuard ro n).Keeps (St.Fit ro.g) := Keeps.critical fun _ _ _ _ _ _ h e => by cases e; exact h

theorem insertRegion (ro : Ro) (p n gd : Nat) (b : Bool) : (HM.insertRegion ro p n gd b).Keeps (St.Fit ro.g) := Keeps.critical fun ch σ e σ' e' b h hf => by
  split at hf
  · cases hf
  · split at hf
    · rename_i hr
      cases hf
      exact ⟨regionsInsert_total hr h.1, h.2⟩
    all_goals first | (cases hf; exact h) | cases hf

theorem findRegion (ro : Ro) (p : Nat) (m : String) : (HM.findRegion ro p m).Keeps (St.Fit ro.g) := Keeps.critical fun ch σ e σ' e' b h hf => by
  split at hf <;> first | (cases hf; exact h) | cases hf

theorem removeRegion (ro : Ro) (p : Nat) (x : Option Nat) (m : String) : (HM.removeRegion ro p x m).Keeps (St.Fit ro.g) := Keeps.critical fun ch σ e σ' e' b h hf => by
  split at hf
  · split at hf
    · cases hf
    · split at hf
      · rename_i hr
        cases hf
        exact ⟨regionsDelete_total hr h.1, h.2⟩
      all_goals cases hf
  all_goals cases hf

theorem resizeRegion (ro : Ro) (p o n : Nat) : (HM.resizeRegion ro p o n).Keeps (St.Fit ro.g) := Keeps.critical fun ch σ e σ' e' b h hf => by
  split at hf <;> first | (cases hf; exact h) | cases hf

theorem quarantineRegion (ro : Ro) (t : Nat × Nat) : (HM.quarantineRegion ro t).Keeps (St.Fit ro.g) := Keeps.critical fun ch σ e σ' e' b h hf => by
  have h1 : (pushRegionRandom ro.g ch σ t).1.Fit ro.g := by unfold pushRegionRandom; split <;> exact h
  simp only at hf
  split at hf
  · cases hf; exact h1
  · cases hf
    unfold pushRegionQueue; split <;> exact h1

theorem smallAlloc (ro : Ro) (a n : Nat) : (HM.smallAlloc ro a n).Keeps (St.Fit ro.g) := Keeps.critical fun ch σ e σ' e' b h hf => by
  simp only at hf
  split at hf
  · cases hf
  · split at hf
    · rename_i hr
      cases hf
      exact h.set ((h.2 _ _).allocateSmall hr) _
    all_goals cases hf

theorem smallFree (ro : Ro) (p : Nat) (x : Option Nat) : (HM.smallFree ro p x).Keeps (St.Fit ro.g) := Keeps.critical fun ch σ e σ' e' b h hf => by
  simp only at hf
  split at hf
  · cases hf
  · split at hf
    · rename_i hr
      cases hf
      exact h.set ((h.2 _ _).deallocateSmall hr) _
    all_goals cases hf

theorem smallTrim (ro : Ro) (a c : Nat) : (HM.smallTrim ro a c).Keeps (St.Fit ro.g) := Keeps.critical fun ch σ e σ' e' b h hf => by
  split at hf
  · rename_i hr
    cases hf
    exact h.set ((h.2 _ _).trimClass hr) _
  all_goals cases hf

theorem smallCheck (ro : Ro) (p : Nat) : (HM.smallCheck ro p).Keeps (St.Fit ro.g) := Keeps.critical fun ch σ e σ' e' b h hf => by
  simp only at hf
  split at hf
  · cases hf
  · split at hf <;> first | (cases hf; exact h) | cases hf

theorem smallOffset (ro : Ro) (p : Nat) : (HM.smallOffset ro p).Keeps (St.Fit ro.g) := Keeps.critical fun ch σ e σ' e' b h hf => by
  simp only at hf
  split at hf
  · cases hf
  · split at hf <;> first | (cases hf; exact h) | cases hf

theorem largeObjectSize (ro : Ro) (p : Nat) : (HM.largeObjectSize ro p).Keeps (St.Fit ro.g) := Keeps.critical fun ch σ e σ' e' b h hf => by
  split at hf <;> first | (cases hf; exact h) | cases hf

theorem readLargeStats (ro : Ro) : (HM.readLargeStats ro).Keeps (St.Fit ro.g) := Keeps.critical fun _ _ _ _ _ _ h e => by cases e; exact h
theorem readClassStats (ro : Ro) (a c : Nat) : (HM.readClassStats ro a c).Keeps (St.Fit ro.g) := Keeps.critical fun _ _ _ _ _ _ h e => by cases e; exact h

/-- One step through a program. -/
syntax "fit1" : tactic
/-- Walk through a program. -/
macro "fits" : tactic => `(tactic| repeat (first | with_reducible exact Keeps.pure _ | with_reducible assumption | fit1 | with_reducible refine Keeps.bind ?_ fun _ => ?_ | split | simp only))
macro_rules | `(tactic| fit1) => `(tactic| with_reducible exact setErrno _)
macro_rules | `(tactic| fit1) => `(tactic| with_reducible exact getErrno)
macro_rules | `(tactic| fit1) => `(tactic| with_reducible exact unsealMeta)
macro_rules | `(tactic| fit1) => `(tactic| with_reducible exact sealMeta)
macro_rules | `(tactic| fit1) => `(tactic| with_reducible exact die _)
macro_rules | `(tactic| fit1) => `(tactic| with_reducible exact sysMap _)
macro_rules | `(tactic| fit1) => `(tactic| with_reducible exact sysCall _ _)
macro_rules | `(tactic| fit1) => `(tactic| with_reducible exact memCopy _ _ _)
macro_rules | `(tactic| fit1) => `(tactic| with_reducible exact memZero _ _)
macro_rules | `(tactic| fit1) => `(tactic| with_reducible exact drawGuard _ _)
macro_rules | `(tactic| fit1) => `(tactic| with_reducible exact insertRegion _ _ _ _ _)
macro_rules | `(tactic| fit1) => `(tactic| with_reducible exact findRegion _ _ _)
macro_rules | `(tactic| fit1) => `(tactic| with_reducible exact removeRegion _ _ _ _)
macro_rules | `(tactic| fit1) => `(tactic| with_reducible exact resizeRegion _ _ _ _)
macro_rules | `(tactic| fit1) => `(tactic| with_reducible exact quarantineRegion _ _)
macro_rules | `(tactic| fit1) => `(tactic| with_reducible exact smallAlloc _ _ _)
macro_rules | `(tactic| fit1) => `(tactic| with_reducible exact smallFree _ _ _)
macro_rules | `(tactic| fit1) => `(tactic| with_reducible exact smallTrim _ _ _)
macro_rules | `(tactic| fit1) => `(tactic| with_reducible exact smallCheck _ _)
macro_rules | `(tactic| fit1) => `(tactic| with_reducible exact smallOffset _ _)
macro_rules | `(tactic| fit1) => `(tactic| with_reducible exact largeObjectSize _ _)
macro_rules | `(tactic| fit1) => `(tactic| with_reducible exact readLargeStats _)
macro_rules | `(tactic| fit1) => `(tactic| with_reducible exact readClassStats _ _ _)

theorem deallocatePages (p n gd : Nat) : (HM.deallocatePages p n gd).Keeps (St.Fit g) := by
  unfold HM.deallocatePages sysPurge sysUnmap
  fits
macro_rules | `(tactic| fit1) => `(tactic| with_reducible exact deallocatePages _ _ _)
theorem allocatePages (n gd : Nat) : (HM.allocatePages n gd).Keeps (St.Fit g) := by
  unfold HM.allocatePages sysProtect sysUnmap
  fits
macro_rules | `(tactic| fit1) => `(tactic| with_reducible exact allocatePages _ _)
theorem trimMapping (a b c d e f k : Nat) : (HM.trimMapping a b c d e f k).Keeps (St.Fit g) := by
  unfold HM.trimMapping sysUnmap sysUnmapTrail
  fits
macro_rules | `(tactic| fit1) => `(tactic| with_reducible exact trimMapping _ _ _ _ _ _ _)
theorem drawMetaGuard (g : Cfg) : (HM.drawMetaGuard g).Keeps (St.Fit g) := Keeps.one fun _ _ _ _ _ _ h e => by cases e; exact h
macro_rules | `(tactic| fit1) => `(tactic| with_reducible exact drawMetaGuard _)
theorem drawGaps (g : Cfg) : (HM.drawGaps g).Keeps (St.Fit g) := Keeps.one fun _ _ _ _ _ _ h e => by cases e; exact h
macro_rules | `(tactic| fit1) => `(tactic| with_reducible exact drawGaps _)
theorem mapAligned (a b c d e : Nat) : (HM.mapAligned a b c d e).Keeps (St.Fit g) := by
  unfold HM.mapAligned sysProtect sysUnmap
  fits
macro_rules | `(tactic| fit1) => `(tactic| with_reducible exact mapAligned _ _ _ _ _)
theorem allocatePagesAligned (a b c : Nat) : (HM.allocatePagesAligned a b c).Keeps (St.Fit g) := by
  unfold HM.allocatePagesAligned
  simp only
  generalize W64 = w
  fits
macro_rules | `(tactic| fit1) => `(tactic| with_reducible exact allocatePagesAligned _ _ _)
theorem quarantineDeallocatePages (ro : Ro) (a b c : Nat) : (HM.quarantineDeallocatePages ro a b c).Keeps (St.Fit ro.g) := by
  unfold HM.quarantineDeallocatePages sysMapFixed sysPurge sysUnmap
  fits
macro_rules | `(tactic| fit1) => `(tactic| with_reducible exact quarantineDeallocatePages _ _ _ _)
theorem finishLarge (ro : Ro) (a b : Nat) (c : Bool) (p : Option Nat) : (HM.finishLarge ro a b c p).Keeps (St.Fit ro.g) := by
  unfold HM.finishLarge
  fits
macro_rules | `(tactic| fit1) => `(tactic| with_reducible exact finishLarge _ _ _ _ _)
theorem allocateLarge (ro : Ro) (n : Nat) : (HM.allocateLarge ro n).Keeps (St.Fit ro.g) := by
  unfold HM.allocateLarge
  fits
macro_rules | `(tactic| fit1) => `(tactic| with_reducible exact allocateLarge _ _)
theorem allocate (ro : Ro) (a n : Nat) : (HM.allocate ro a n).Keeps (St.Fit ro.g) := by
  unfold HM.allocate
  fits
macro_rules | `(tactic| fit1) => `(tactic| with_reducible exact allocate _ _ _)
theorem deallocateLarge (ro : Ro) (p : Nat) (x : Option Nat) : (HM.deallocateLarge ro p x).Keeps (St.Fit ro.g) := by
  unfold HM.deallocateLarge
  fits
macro_rules | `(tactic| fit1) => `(tactic| with_reducible exact deallocateLarge _ _ _)
theorem allocateOverAligned (ro : Ro) (a n : Nat) : (HM.allocateOverAligned ro a n).Keeps (St.Fit ro.g) := by
  unfold HM.allocateOverAligned
  fits
macro_rules | `(tactic| fit1) => `(tactic| with_reducible exact allocateOverAligned _ _ _)
theorem allocateAligned (ro : Ro) (a b c d : Nat) : (HM.allocateAligned ro a b c d).Keeps (St.Fit ro.g) := by
  unfold HM.allocateAligned
  fits
macro_rules | `(tactic| fit1) => `(tactic| with_reducible exact allocateAligned _ _ _ _ _)
theorem allocAligned (ro : Ro) (a b c d : Nat) : (HM.allocAligned ro a b c d).Keeps (St.Fit ro.g) := by
  unfold HM.allocAligned
  fits
macro_rules | `(tactic| fit1) => `(tactic| with_reducible exact allocAligned _ _ _ _ _)
theorem allocAlignedSimple (ro : Ro) (a b c : Nat) : (HM.allocAlignedSimple ro a b c).Keeps (St.Fit ro.g) := by
  unfold HM.allocAlignedSimple
  fits
macro_rules | `(tactic| fit1) => `(tactic| with_reducible exact allocAlignedSimple _ _ _ _)
theorem alloc (ro : Ro) (a n : Nat) : (HM.alloc ro a n).Keeps (St.Fit ro.g) := by
  unfold HM.alloc
  fits
macro_rules | `(tactic| fit1) => `(tactic| with_reducible exact alloc _ _ _)
theorem hCalloc (ro : Ro) (a n k : Nat) : (HM.hCalloc ro a n k).Keeps (St.Fit ro.g) := by
  unfold HM.hCalloc
  fits
macro_rules | `(tactic| fit1) => `(tactic| with_reducible exact hCalloc _ _ _ _)
theorem reallocCopy (ro : Ro) (a b c d : Nat) : (HM.reallocCopy ro a b c d).Keeps (St.Fit ro.g) := by
  unfold HM.reallocCopy
  fits
macro_rules | `(tactic| fit1) => `(tactic| with_reducible exact reallocCopy _ _ _ _ _)
theorem reallocShrink (ro : Ro) (a b c d : Nat) : (HM.reallocShrink ro a b c d).Keeps (St.Fit ro.g) := by
  unfold HM.reallocShrink sysMapFixed
  fits
macro_rules | `(tactic| fit1) => `(tactic| with_reducible exact reallocShrink _ _ _ _ _)
theorem reallocMove (ro : Ro) (a b c d : Nat) : (HM.reallocMove ro a b c d).Keeps (St.Fit ro.g) := by
  unfold HM.reallocMove sysRemap sysUnmap
  fits
macro_rules | `(tactic| fit1) => `(tactic| with_reducible exact reallocMove _ _ _ _ _)
theorem reallocLarge (ro : Ro) (a b c : Nat) : (HM.reallocLarge ro a b c).Keeps (St.Fit ro.g) := by
  unfold HM.reallocLarge
  fits
macro_rules | `(tactic| fit1) => `(tactic| with_reducible exact reallocLarge _ _ _ _)
theorem reallocSized (ro : Ro) (a b c : Nat) : (HM.reallocSized ro a b c).Keeps (St.Fit ro.g) := by
  unfold HM.reallocSized
  fits
macro_rules | `(tactic| fit1) => `(tactic| with_reducible exact reallocSized _ _ _ _)
theorem hRealloc (ro : Ro) (a b c : Nat) : (HM.hRealloc ro a b c).Keeps (St.Fit ro.g) := by
  unfold HM.hRealloc
  fits
macro_rules | `(tactic| fit1) => `(tactic| with_reducible exact hRealloc _ _ _ _)
theorem hPvalloc (ro : Ro) (a n : Nat) : (HM.hPvalloc ro a n).Keeps (St.Fit ro.g) := by
  unfold HM.hPvalloc
  fits
macro_rules | `(tactic| fit1) => `(tactic| with_reducible exact hPvalloc _ _ _)
theorem hFree (ro : Ro) (p : Nat) : (HM.hFree ro p).Keeps (St.Fit ro.g) := by
  unfold HM.hFree
  fits
macro_rules | `(tactic| fit1) => `(tactic| with_reducible exact hFree _ _)
theorem hFreeSized (ro : Ro) (p n : Nat) : (HM.hFreeSized ro p n).Keeps (St.Fit ro.g) := by
  unfold HM.hFreeSized
  fits
macro_rules | `(tactic| fit1) => `(tactic| with_reducible exact hFreeSized _ _ _)
theorem hUsableSize (ro : Ro) (p : Nat) : (HM.hUsableSize ro p).Keeps (St.Fit ro.g) := by
  unfold HM.hUsableSize
  fits
macro_rules | `(tactic| fit1) => `(tactic| with_reducible exact hUsableSize _ _)
theorem hObjectSize (ro : Ro) (p : Nat) : (HM.hObjectSize ro p).Keeps (St.Fit ro.g) := by
  unfold HM.hObjectSize
  fits
macro_rules | `(tactic| fit1) => `(tactic| with_reducible exact hObjectSize _ _)
theorem hObjectSizeFast (ro : Ro) (p : Nat) : (HM.hObjectSizeFast ro p).Keeps (St.Fit ro.g) := by
  unfold HM.hObjectSizeFast
  fits
macro_rules | `(tactic| fit1) => `(tactic| with_reducible exact hObjectSizeFast _ _)

theorem trimClasses (ro : Ro) (a : Nat) : ∀ n c t, (HM.trimClasses ro a n c t).Keeps (St.Fit ro.g) := by
  intro n
  induction n with
  | zero => intro c t; exact Keeps.pure _
  | succ n ih => intro c t; exact Keeps.bind (smallTrim _ _ _) fun _ => ih _ _

theorem trimArenas (ro : Ro) : ∀ n a t, (HM.trimArenas ro n a t).Keeps (St.Fit ro.g) := by
  intro n
  induction n with
  | zero => intro a t; exact Keeps.pure _
  | succ n ih => intro a t; exact Keeps.bind (trimClasses _ _ _ _ _) fun _ => ih _ _

theorem sumClasses (ro : Ro) (a : Nat) : ∀ n c t, (HM.sumClasses ro a n c t).Keeps (St.Fit ro.g) := by
  intro n
  induction n with
  | zero => intro c t; exact Keeps.pure _
  | succ n ih => intro c t; exact Keeps.bind (readClassStats _ _ _) fun _ => ih _ _

theorem sumArenas (ro : Ro) : ∀ n a t, (HM.sumArenas ro n a t).Keeps (St.Fit ro.g) := by
  intro n
  induction n with
  | zero => intro a t; exact Keeps.pure _
  | succ n ih => intro a t; exact Keeps.bind (sumClasses _ _ _ _ _) fun _ => ih _ _

macro_rules | `(tactic| fit1) => `(tactic| with_reducible exact trimArenas _ _ _ _)
macro_rules | `(tactic| fit1) => `(tactic| with_reducible exact sumArenas _ _ _ _)
macro_rules | `(tactic| fit1) => `(tactic| with_reducible exact drawMetaGuard _)
macro_rules | `(tactic| fit1) => `(tactic| with_reducible exact drawGaps _)

theorem hTrim (ro : Ro) : (HM.hTrim ro).Keeps (St.Fit ro.g) := by
  unfold HM.hTrim
  fits

theorem hMallinfo (ro : Ro) : (HM.hMallinfo ro).Keeps (St.Fit ro.g) := by
  unfold HM.hMallinfo
  fits

theorem initSlowPath (g : Cfg) (l : Layout) : (HM.initSlowPath g l).Keeps (St.Fit g) := by
  unfold HM.initSlowPath sysProtect reservePages
  fits

macro_rules | `(tactic| fit1) => `(tactic| with_reducible exact hTrim _)
macro_rules | `(tactic| fit1) => `(tactic| with_reducible exact hMallinfo _)

theorem prog (ro : Ro) (a : Nat) (c : Call) : (c.prog ro a).Keeps (St.Fit ro.g) := by
  cases c <;> unfold Call.prog <;> (try unfold hMalloc hPosixMemalign hAlignedAlloc hValloc) <;> fits

end Fit

unseal Prog.Keeps in
theorem Keeps.act {I : St → Prop} {α β : Type} {l : Option Sect} {f : Choice → St → Tl → Res (St × Tl × β)} {k : β → Prog α}
    (h : (Prog.act (l := l) f k).Keeps I) : (∀ ch σ tl σ' tl' b, I σ → f ch σ tl = .ok (σ', tl', b) → I σ') ∧ ∀ b, (k b).Keeps I := h

end HM
