import Verif.Machine
import Verif.Init
import Verif.Seq
/-
The canary value of a slab always has a zero byte in front: an invariant of every action of every program.
-/
namespace HM

/-! ### Programs that preserve a predicate -/

/-- Every action of the program preserves `I`. -/
def Prog.Keeps {α : Type} (I : St → Prop) : Prog α → Prop
  | .ret _ => True
  | .act f k => (∀ ch σ tl σ' tl' b, I σ → f ch σ tl = .ok (σ', tl', b) → I σ') ∧ ∀ b, (k b).Keeps I

namespace Keeps

variable {α β : Type} {I : St → Prop}

theorem pure (a : α) : (Pure.pure a : Prog α).Keeps I := trivial

theorem bind {P : Prog α} {k : α → Prog β} (h : P.Keeps I) (hk : ∀ a, (k a).Keeps I) : (P >>= k).Keeps I := by
  induction P with
  | ret a => exact hk a
  | act f j ih => exact ⟨h.1, fun b => ih b (h.2 b)⟩

theorem one {f : Choice → St → Tl → Res (St × Tl × β)} (h : ∀ ch σ tl σ' tl' b, I σ → f ch σ tl = .ok (σ', tl', b) → I σ') :
    (Prog.one f).Keeps I := ⟨h, fun _ => trivial⟩

theorem _root_.HM.Prog.Keeps.run {P : Prog α} (h : P.Keeps I) {chs : Nat → Choice} {σ σ' : St} {tl tl' : Tl} {a : α} (hI : I σ)
    (hr : P.run chs σ tl = .ok (σ', tl', a)) : I σ' := by
  induction P generalizing chs σ tl with
  | ret b => cases hr; exact hI
  | act f k ih =>
    rw [Prog.run] at hr
    revert hr
    cases hf : f (chs 0) σ tl with
    | ok x => obtain ⟨σ1, tl1, b⟩ := x; exact fun hr => ih b (h.2 b) (h.1 _ _ _ _ _ _ hI hf) hr
    | _ => intro hr; cases hr

theorem critical {ro : Ro} {s : Sect} {f : Choice → St → Errno → Res (St × Errno × β)} (h : ∀ ch σ e σ' e' b, I σ → f ch σ e = .ok (σ', e', b) → I σ') :
    (HM.critical ro s f).Keeps I := by
  refine ⟨fun ch σ tl σ' tl' b hI hf => ?_, fun _ => trivial⟩
  dsimp only at hf
  by_cases hs : (ro.g.sealMetadata && !tl.unsealed) = true
  · rw [if_pos hs] at hf; cases hf
  · rw [if_neg hs] at hf
    revert hf
    cases hr : f ch σ tl.errno with
    | ok x => obtain ⟨σ1, e1, b1⟩ := x; intro hf; cases hf; exact h _ _ _ _ _ _ hI hr
    | _ => intro hf; cases hf

end Keeps

/-! ### The canary values -/

/-- The first byte (in memory) of every canary value is zero. -/
def SC.Low (c : SC) : Prop := ∀ i, byteOf (c.slabs i).canary 0 = 0#8

/-- The same, for all classes. -/
def St.Low (σ : St) : Prop := ∀ a c, (σ.sc a c).Low

theorem SC.Low.upd {c : SC} (h : c.Low) {m : Nat} {f : Slab → Slab} (hf : ∀ s, byteOf s.canary 0 = 0#8 → byteOf (f s).canary 0 = 0#8) : (c.upd m f).Low := by
  intro i
  show byteOf (if i = m then f (c.slabs m) else c.slabs i).canary 0 = _
  by_cases e : i = m
  · rw [if_pos e]; exact hf _ (h m)
  · rw [if_neg e]; exact h i

theorem SC.Low.of {c c' : SC} (h : c.Low) (hs : ∀ i, (c'.slabs i).canary = (c.slabs i).canary) : c'.Low := fun i => by rw [hs]; exact h i

theorem SC.Low.setPrev {c : SC} (h : c.Low) (l v : Option Nat) : (c.setPrev l v).Low := by
  cases l with
  | none => exact h
  | some m => exact SC.Low.upd (f := fun s => { s with prev := v }) h (by intro s hs; exact hs)

theorem low_mask (v : BitVec 64) : byteOf (v &&& 0xffffffffffffff00#64) 0 = 0#8 := by
  unfold byteOf
  apply BitVec.eq_of_getLsbD_eq
  intro i hi
  simp only [Nat.mul_zero, BitVec.getLsbD_setWidth, BitVec.getLsbD_ushiftRight, Nat.zero_add, BitVec.getLsbD_and, BitVec.getLsbD_zero]
  have : (0xffffffffffffff00#64).getLsbD i = false := by
    have : ∀ i : Nat, i < 8 → (0xffffffffffffff00#64).getLsbD i = false := by decide
    exact this i hi
  rw [this]; simp

theorem low_canaryValue (g : Cfg) (r : BitVec 64) : byteOf (canaryValue g r) 0 = 0#8 := by
  unfold canaryValue
  simp only
  split
  · decide
  · exact low_mask r

theorem SC.Low.setCanaryValue {c : SC} (h : c.Low) (g : Cfg) (ch : Choice) (m : Nat) : (c.setCanaryValue g ch m).Low := by
  unfold SC.setCanaryValue
  split
  · exact h.upd fun s _ => low_canaryValue _ _
  · exact h

theorem SC.Low.statsAlloc {c : SC} (h : c.Low) (g : Cfg) (n : Nat) : (c.statsAlloc g n).Low := by unfold SC.statsAlloc; split <;> exact h
theorem SC.Low.statsDealloc {c : SC} (h : c.Low) (g : Cfg) (n : Nat) : (c.statsDealloc g n).Low := by unfold SC.statsDealloc; split <;> exact h
theorem SC.Low.statsSlabAlloc {c : SC} (h : c.Low) (g : Cfg) (n : Nat) : (c.statsSlabAlloc g n).Low := by unfold SC.statsSlabAlloc; split <;> exact h
theorem SC.Low.statsSlabDealloc {c : SC} (h : c.Low) (g : Cfg) (n : Nat) : (c.statsSlabDealloc g n).Low := by unfold SC.statsSlabDealloc; split <;> exact h

theorem bind_ok {α β : Type} {r : Res α} {k : α → Res β} {b : β} (h : (r >>= k) = .ok b) : ∃ a, r = .ok a ∧ k a = .ok b := by
  cases r with
  | ok a => exact ⟨a, rfl, h⟩
  | _ => cases h

theorem SC.Low.takeSlot {g : Cfg} {slots m s : Nat} {ch : Choice} {c c' : SC} (h : c.Low) (ht : HM.takeSlot g slots ch c m = .ok (s, c')) : c'.Low := by
  unfold HM.takeSlot at ht
  split at ht
  · split at ht <;> cases ht
  · cases ht; exact h.upd (by intro s hs; exact hs)

theorem SC.Low.takeFreeHead {c : SC} (h : c.Low) (slots m : Nat) : (c.takeFreeHead slots m).Low := by
  intro i
  have : (c.takeFreeHead slots m).slabs i = if i = m then { c.slabs m with next := none, prev := none } else c.slabs i := by
    unfold SC.takeFreeHead
    simp only
    split <;> rfl
  rw [this]
  split
  · exact h m
  · exact h i

theorem SC.Low.growMetadata {g : Cfg} {cls : Nat} {ch : Choice} {c c' : SC} (h : c.Low) (hg : HM.growMetadata g cls ch c = .ok (some c')) : c'.Low := by
  unfold HM.growMetadata at hg
  split at hg
  · split at hg
    · cases hg
    · revert hg
      cases ch.sys 0 with
      | ok => intro hg; cases hg; exact h
      | _ => intro hg; cases hg
  · cases hg; exact h

theorem SC.Low.allocMetadata {g : Cfg} {base cls : Nat} {nz : Bool} {ch : Choice} {c c' : SC} {vm vm' : Vm} {e e' : Errno} {mo : Option Nat} (h : c.Low)
    (hg : HM.allocMetadata g base cls nz ch c vm e = .ok (mo, c', vm', e')) : c'.Low := by
  unfold HM.allocMetadata at hg
  obtain ⟨o, h1, hg⟩ := bind_ok hg
  cases o with
  | none => cases hg; exact h
  | some c1 =>
    have h1 := h.growMetadata h1
    obtain ⟨⟨vm1, failed⟩, _, hg⟩ := bind_ok hg
    simp only at hg
    split at hg
    · cases hg; exact h1
    · cases hg; intro i; unfold SC.bumpMetadata; split <;> exact h1 i

theorem SC.Low.allocateSmall {g : Cfg} {base cls n : Nat} {ch : Choice} {c c' : SC} {vm vm' : Vm} {e e' : Errno} {o : Option Nat} (h : c.Low)
    (hr : HM.allocateSmall g base cls n ch c vm e = .ok (o, c', vm', e')) : c'.Low := by
  unfold HM.allocateSmall at hr
  split at hr
  · unfold allocFromPartial at hr
    obtain ⟨⟨s, c1⟩, h1, hr⟩ := bind_ok hr
    have h1 := h.takeSlot h1
    obtain ⟨vm1, _, hr⟩ := bind_ok hr
    cases hr
    refine SC.Low.statsAlloc ?_ _ _
    split
    · exact SC.Low.setPrev (c := { c1 with partialHead := (c1.slabs _).next }) h1 _ _
    · exact h1
  split at hr
  · unfold allocFromEmpty at hr
    obtain ⟨⟨s, c1⟩, h1, hr⟩ := bind_ok hr
    obtain ⟨vm1, _, hr⟩ := bind_ok hr
    cases hr
    refine SC.Low.statsAlloc (SC.Low.takeSlot ?_ h1) _ _
    rename_i m _ _ _
    refine h.of fun i => ?_
    show (if i = m then _ else c.slabs i).canary = _
    split
    · rename_i e; rw [e]
    · rfl
  split at hr
  · unfold allocFromFree at hr
    obtain ⟨⟨vm1, failed⟩, _, hr⟩ := bind_ok hr
    have h1 := h.setCanaryValue g ch
    simp only at hr
    split at hr
    · cases hr; exact h1 _
    · obtain ⟨⟨s, c1⟩, h2, hr⟩ := bind_ok hr
      obtain ⟨vm1, _, hr⟩ := bind_ok hr
      cases hr
      exact (SC.Low.statsSlabAlloc (((h1 _).takeFreeHead _ _).takeSlot h2) _ _).statsAlloc _ _
  · unfold allocFromNew at hr
    obtain ⟨⟨mo, c1, vm1, e1⟩, h1, hr⟩ := bind_ok hr
    have h5 := h.allocMetadata h1
    cases mo with
    | none => cases hr; exact h5
    | some m =>
      obtain ⟨⟨s, c2⟩, h2, hr⟩ := bind_ok hr
      obtain ⟨vm1, _, hr⟩ := bind_ok hr
      cases hr
      have h3 := h5.setCanaryValue g ch m
      exact (SC.Low.statsSlabAlloc (SC.Low.takeSlot (c := { (c1.setCanaryValue g ch m) with partialHead := if g.slots cls > 1 then some m else none }) h3 h2) _ _).statsAlloc _ _

theorem SC.Low.enqueueFreeSlab {g : Cfg} {draw m : Nat} {c c' : SC} (h : c.Low) (hr : HM.enqueueFreeSlab g draw c m = .ok c') : c'.Low := by
  unfold HM.enqueueFreeSlab at hr
  split at hr
  · cases hr
  · have h1 : (c.upd m fun s => { s with next := none }).Low := h.upd (by intro s hs; exact hs)
    simp only at hr
    split at hr
    · cases hr; exact h1
    · cases hr
      intro i
      show byteOf (SC.slabs (match (c.upd m fun s => { s with next := none }).freeTail with | some t => _ | none => _) i).canary 0 = _
      split
      · rename_i t _
        show byteOf (if i = t then _ else (c.upd m fun s => { s with next := none }).slabs i).canary 0 = _
        split
        · exact h1 t
        · exact h1 i
      · exact h1 i

theorem SC.Low.quarantineSlot {g : Cfg} {base cls p m s : Nat} {ch : Choice} {c c' : SC} {o : Option (Nat × Nat)} (h : c.Low)
    (hr : HM.quarantineSlot g base cls ch c p m s = .ok (c', o)) : c'.Low := by
  unfold HM.quarantineSlot at hr
  split at hr
  · cases hr; exact h
  split at hr
  · cases hr
  obtain ⟨⟨c1, p1⟩, h1, hr⟩ := bind_ok hr
  have h1 : c1.Low := by
    unfold pushRandom at h1
    have h0 : (c.setQuar m s).Low := h.upd (by intro s hs; exact hs)
    split at h1
    · cases h1; exact h0
    · simp only at h1
      split at h1
      · cases h1
      · cases h1; exact h0
  simp only at hr
  split at hr
  · cases hr; exact h1
  obtain ⟨⟨c2, p2⟩, h2, hr⟩ := bind_ok hr
  have h2 : c2.Low := by
    unfold pushQueue at h2
    split at h2
    · cases h2; exact h1
    · simp only at h2
      split at h2
      · cases h2
      · cases h2; exact h1
  simp only at hr
  split at hr
  · cases hr; exact h2
  obtain ⟨⟨c3, m3, s3⟩, h3, hr⟩ := bind_ok hr
  cases hr
  unfold leaveQuarantine at h3
  obtain ⟨m4, _, h3⟩ := bind_ok h3
  simp only at h3
  split at h3
  · cases h3
  · cases h3; exact SC.Low.upd (c := c2) (f := fun s => { s with qbitmap := s.qbitmap.clear _ }) h2 (by intro s hs; exact hs)

theorem SC.Low.cacheSlab {c : SC} (h : c.Low) (g : Cfg) (cls m : Nat) : (c.cacheSlab g cls m).Low :=
  SC.Low.upd (c := c) h (m := m) (f := fun s => { s with next := c.emptyHead }) (by intro s hs; exact hs)

theorem SC.Low.unlinkPartial {c : SC} (h : c.Low) (m : Nat) : (c.unlinkPartial m).Low := by
  unfold SC.unlinkPartial
  refine SC.Low.upd (SC.Low.setPrev ?_ _ _) (by intro s hs; exact hs)
  split
  · exact h.upd (by intro s hs; exact hs)
  · exact h

theorem SC.Low.releaseSlot {g : Cfg} {base cls m s : Nat} {ch : Choice} {c c' : SC} {vm vm' : Vm} {e e' : Errno} (h : c.Low)
    (hr : HM.releaseSlot g base cls ch c vm e m s = .ok (c', vm', e')) : c'.Low := by
  unfold HM.releaseSlot at hr
  have h1 : ((c.linkPartial (g.slots cls) m).clearUsed m s).Low := by
    refine SC.Low.upd ?_ (by intro s hs; exact hs)
    unfold SC.linkPartial
    split
    · exact SC.Low.setPrev (c := c.upd m fun s => { s with next := c.partialHead, prev := none }) (h.upd (by intro s hs; exact hs)) _ _
    · exact h
  simp only at hr
  split at hr
  · unfold retireSlab at hr
    simp only at hr
    have h2 := h1.unlinkPartial m
    split at hr
    · obtain ⟨⟨vm1, failed⟩, _, hr⟩ := bind_ok hr
      simp only at hr
      split at hr
      · obtain ⟨vm2, _, hr⟩ := bind_ok hr
        cases hr; exact h2.cacheSlab _ _ _
      · obtain ⟨c2, h3, hr⟩ := bind_ok hr
        cases hr; exact (h2.statsSlabDealloc _ _).enqueueFreeSlab h3
    · cases hr; exact h2.cacheSlab _ _ _
  · cases hr; exact h1

theorem SC.Low.deallocateSmall {g : Cfg} {base cls p : Nat} {x : Option Nat} {ch : Choice} {c c' : SC} {vm vm' : Vm} {e e' : Errno} (h : c.Low)
    (hr : HM.deallocateSmall g base cls p x ch c vm e = .ok (c', vm', e')) : c'.Low := by
  unfold HM.deallocateSmall at hr
  split at hr
  · cases hr
  obtain ⟨⟨m, s⟩, _, hr⟩ := bind_ok hr
  obtain ⟨vm1, _, hr⟩ := bind_ok hr
  obtain ⟨⟨c1, o⟩, h1, hr⟩ := bind_ok hr
  have h2 := (h.statsDealloc g _).quarantineSlot h1
  cases o with
  | none => cases hr; exact h2
  | some q => exact h2.releaseSlot hr

theorem SC.Low.trimLoop {g : Cfg} {base cls : Nat} {ch : Choice} : ∀ {fuel k k' : Nat} {it it' : Option Nat} {b b' : Bool} {c c' : SC} {vm vm' : Vm} {e e' : Errno}, c.Low →
    HM.trimLoop g base cls ch fuel k it b c vm e = .ok (k', it', b', c', vm', e') → c'.Low := by
  intro fuel
  induction fuel with
  | zero => intro k k' it it' b b' c c' vm vm' e e' h hr; unfold HM.trimLoop at hr; cases hr
  | succ n ih =>
    intro k k' it it' b b' c c' vm vm' e e' h hr
    cases it with
    | none => unfold HM.trimLoop at hr; cases hr; exact h
    | some i =>
      unfold HM.trimLoop at hr
      obtain ⟨⟨vm1, failed⟩, _, hr⟩ := bind_ok hr
      simp only at hr
      split at hr
      · cases hr; exact h
      · obtain ⟨c1, h1, hr⟩ := bind_ok hr
        refine ih (SC.Low.enqueueFreeSlab ?_ h1) hr
        exact h.statsSlabDealloc g _

theorem SC.Low.trimClass {g : Cfg} {base cls : Nat} {ch : Choice} {b : Bool} {c c' : SC} {vm vm' : Vm} {e e' : Errno} (h : c.Low)
    (hr : HM.trimClass g base cls ch c vm e = .ok (b, c', vm', e')) : c'.Low := by
  unfold HM.trimClass at hr
  obtain ⟨⟨k, it, b1, c1, vm1, e1⟩, h1, hr⟩ := bind_ok hr
  obtain ⟨⟨vm2, e2⟩, _, hr⟩ := bind_ok hr
  cases hr
  exact (h.trimLoop h1).of fun _ => rfl

theorem St.Low.set {σ : St} (h : σ.Low) {a c : Nat} {x : SC} (hx : x.Low) (vm : Vm) :
    St.Low { σ with vm := vm, sc := fun b k => if b = a ∧ k = c then x else σ.sc b k } := by
  intro b k
  show (if b = a ∧ k = c then x else σ.sc b k).Low
  split
  · exact hx
  · exact h b k

/-! ### The programs -/

namespace Low

theorem setErrno (e : Errno) : (HM.setErrno e).Keeps St.Low := Keeps.one fun _ _ _ _ _ _ h e => by cases e; exact h
theorem getErrno : HM.getErrno.Keeps St.Low := Keeps.one fun _ _ _ _ _ _ h e => by cases e; exact h
theorem unsealMeta : HM.unsealMeta.Keeps St.Low := Keeps.one fun _ _ _ _ _ _ h e => by cases e; exact h
theorem sealMeta : HM.sealMeta.Keeps St.Low := Keeps.one fun _ _ _ _ _ _ h e => by cases e; exact h
theorem die {α : Type} (m : String) : (HM.die m : Prog α).Keeps St.Low := by
  unfold HM.die
  exact ⟨fun _ _ _ _ _ _ _ e => (by cases e), fun b => b.elim⟩

attribute [irreducible] Prog.Keeps

theorem sysMap (n : Nat) : (HM.sysMap n).Keeps St.Low := Keeps.one fun ch σ tl σ' tl' b h hf => by
  split at hf <;> first | (cases hf; exact h) | cases hf

theorem sysCall (l : Bool) (f : Choice → Vm → Res (Vm × Bool)) : (HM.sysCall l f).Keeps St.Low := Keeps.one fun ch σ tl σ' tl' b h hf => by
  split at hf <;> first | (cases hf; exact h) | cases hf

theorem memCopy (d s n : Nat) : (HM.memCopy d s n).Keeps St.Low := Keeps.one fun ch σ tl σ' tl' b h hf => by
  split at hf <;> first | (cases hf; exact h) | cases hf

theorem memZero (p n : Nat) : (HM.memZero p n).Keeps St.Low := Keeps.one fun ch σ tl σ' tl' b h hf => by
  split at hf <;> first | (cases hf; exact h) | cases hf

theorem drawGuard (ro : Ro) (n : Nat) : (HM.drawGuard ro n).Keeps St.Low := Keeps.critical fun _ _ _ _ _ _ h e => by cases e; exact h

theorem insertRegion (ro : Ro) (p n gd : Nat) (b : Bool) : (HM.insertRegion ro p n gd b).Keeps St.Low := Keeps.critical fun ch σ e σ' e' b h hf => by
  split at hf
  · cases hf
  · split at hf <;> first | (cases hf; exact h) | cases hf

theorem findRegion (ro : Ro) (p : Nat) (m : String) : (HM.findRegion ro p m).Keeps St.Low := Keeps.critical fun ch σ e σ' e' b h hf => by
  split at hf <;> first | (cases hf; exact h) | cases hf

theorem removeRegion (ro : Ro) (p : Nat) (x : Option Nat) (m : String) : (HM.removeRegion ro p x m).Keeps St.Low := Keeps.critical fun ch σ e σ' e' b h hf => by
  split at hf
  · split at hf
    · cases hf
    · split at hf <;> first | (cases hf; exact h) | cases hf
  all_goals cases hf

theorem resizeRegion (ro : Ro) (p o n : Nat) : (HM.resizeRegion ro p o n).Keeps St.Low := Keeps.critical fun ch σ e σ' e' b h hf => by
  split at hf <;> first | (cases hf; exact h) | cases hf

theorem quarantineRegion (ro : Ro) (t : Nat × Nat) : (HM.quarantineRegion ro t).Keeps St.Low := Keeps.critical fun ch σ e σ' e' b h hf => by
  have h1 : (pushRegionRandom ro.g ch σ t).1.Low := by unfold pushRegionRandom; split <;> exact h
  simp only at hf
  split at hf
  · cases hf; exact h1
  · cases hf
    unfold pushRegionQueue; split <;> exact h1

theorem smallAlloc (ro : Ro) (a n : Nat) : (HM.smallAlloc ro a n).Keeps St.Low := Keeps.critical fun ch σ e σ' e' b h hf => by
  simp only at hf
  split at hf
  · cases hf
  · split at hf
    · rename_i hr
      cases hf
      exact h.set ((h _ _).allocateSmall hr) _
    all_goals cases hf

theorem smallFree (ro : Ro) (p : Nat) (x : Option Nat) : (HM.smallFree ro p x).Keeps St.Low := Keeps.critical fun ch σ e σ' e' b h hf => by
  simp only at hf
  split at hf
  · cases hf
  · split at hf
    · rename_i hr
      cases hf
      exact h.set ((h _ _).deallocateSmall hr) _
    all_goals cases hf

theorem smallTrim (ro : Ro) (a c : Nat) : (HM.smallTrim ro a c).Keeps St.Low := Keeps.critical fun ch σ e σ' e' b h hf => by
  split at hf
  · rename_i hr
    cases hf
    exact h.set ((h _ _).trimClass hr) _
  all_goals cases hf

theorem smallCheck (ro : Ro) (p : Nat) : (HM.smallCheck ro p).Keeps St.Low := Keeps.critical fun ch σ e σ' e' b h hf => by
  simp only at hf
  split at hf
  · cases hf
  · split at hf <;> first | (cases hf; exact h) | cases hf

theorem smallOffset (ro : Ro) (p : Nat) : (HM.smallOffset ro p).Keeps St.Low := Keeps.critical fun ch σ e σ' e' b h hf => by
  simp only at hf
  split at hf
  · cases hf
  · split at hf <;> first | (cases hf; exact h) | cases hf

theorem largeObjectSize (ro : Ro) (p : Nat) : (HM.largeObjectSize ro p).Keeps St.Low := Keeps.critical fun ch σ e σ' e' b h hf => by
  split at hf <;> first | (cases hf; exact h) | cases hf

theorem readLargeStats (ro : Ro) : (HM.readLargeStats ro).Keeps St.Low := Keeps.critical fun _ _ _ _ _ _ h e => by cases e; exact h
theorem readClassStats (ro : Ro) (a c : Nat) : (HM.readClassStats ro a c).Keeps St.Low := Keeps.critical fun _ _ _ _ _ _ h e => by cases e; exact h

/-- One step through a program. -/
syntax "keep1" : tactic
/-- Walk through a program. -/
macro "keeps" : tactic => `(tactic| repeat (first | with_reducible exact Keeps.pure _ | with_reducible assumption | keep1 | with_reducible refine Keeps.bind ?_ fun _ => ?_ | split | simp only))
macro_rules | `(tactic| keep1) => `(tactic| with_reducible exact setErrno _)
macro_rules | `(tactic| keep1) => `(tactic| with_reducible exact getErrno)
macro_rules | `(tactic| keep1) => `(tactic| with_reducible exact unsealMeta)
macro_rules | `(tactic| keep1) => `(tactic| with_reducible exact sealMeta)
macro_rules | `(tactic| keep1) => `(tactic| with_reducible exact die _)
macro_rules | `(tactic| keep1) => `(tactic| with_reducible exact sysMap _)
macro_rules | `(tactic| keep1) => `(tactic| with_reducible exact sysCall _ _)
macro_rules | `(tactic| keep1) => `(tactic| with_reducible exact memCopy _ _ _)
macro_rules | `(tactic| keep1) => `(tactic| with_reducible exact memZero _ _)
macro_rules | `(tactic| keep1) => `(tactic| with_reducible exact drawGuard _ _)
macro_rules | `(tactic| keep1) => `(tactic| with_reducible exact insertRegion _ _ _ _ _)
macro_rules | `(tactic| keep1) => `(tactic| with_reducible exact findRegion _ _ _)
macro_rules | `(tactic| keep1) => `(tactic| with_reducible exact removeRegion _ _ _ _)
macro_rules | `(tactic| keep1) => `(tactic| with_reducible exact resizeRegion _ _ _ _)
macro_rules | `(tactic| keep1) => `(tactic| with_reducible exact quarantineRegion _ _)
macro_rules | `(tactic| keep1) => `(tactic| with_reducible exact smallAlloc _ _ _)
macro_rules | `(tactic| keep1) => `(tactic| with_reducible exact smallFree _ _ _)
macro_rules | `(tactic| keep1) => `(tactic| with_reducible exact smallTrim _ _ _)
macro_rules | `(tactic| keep1) => `(tactic| with_reducible exact smallCheck _ _)
macro_rules | `(tactic| keep1) => `(tactic| with_reducible exact smallOffset _ _)
macro_rules | `(tactic| keep1) => `(tactic| with_reducible exact largeObjectSize _ _)
macro_rules | `(tactic| keep1) => `(tactic| with_reducible exact readLargeStats _)
macro_rules | `(tactic| keep1) => `(tactic| with_reducible exact readClassStats _ _ _)

theorem deallocatePages (p n gd : Nat) : (HM.deallocatePages p n gd).Keeps St.Low := by
  unfold HM.deallocatePages sysPurge sysUnmap
  keeps
macro_rules | `(tactic| keep1) => `(tactic| with_reducible exact deallocatePages _ _ _)
theorem allocatePages (n gd : Nat) : (HM.allocatePages n gd).Keeps St.Low := by
  unfold HM.allocatePages sysProtect sysUnmap
  keeps
macro_rules | `(tactic| keep1) => `(tactic| with_reducible exact allocatePages _ _)
theorem trimMapping (a b c d e f k : Nat) : (HM.trimMapping a b c d e f k).Keeps St.Low := by
  unfold HM.trimMapping sysUnmap sysUnmapTrail
  keeps
macro_rules | `(tactic| keep1) => `(tactic| with_reducible exact trimMapping _ _ _ _ _ _ _)
theorem drawMetaGuard (g : Cfg) : (HM.drawMetaGuard g).Keeps St.Low := Keeps.one fun _ _ _ _ _ _ h e => by cases e; exact h
macro_rules | `(tactic| keep1) => `(tactic| with_reducible exact drawMetaGuard _)
theorem drawGaps (g : Cfg) : (HM.drawGaps g).Keeps St.Low := Keeps.one fun _ _ _ _ _ _ h e => by cases e; exact h
macro_rules | `(tactic| keep1) => `(tactic| with_reducible exact drawGaps _)
theorem mapAligned (a b c d e : Nat) : (HM.mapAligned a b c d e).Keeps St.Low := by
  unfold HM.mapAligned sysProtect sysUnmap
  keeps
macro_rules | `(tactic| keep1) => `(tactic| with_reducible exact mapAligned _ _ _ _ _)
theorem allocatePagesAligned (a b c : Nat) : (HM.allocatePagesAligned a b c).Keeps St.Low := by
  unfold HM.allocatePagesAligned
  simp only
  generalize W64 = w
  keeps
macro_rules | `(tactic| keep1) => `(tactic| with_reducible exact allocatePagesAligned _ _ _)
theorem quarantineDeallocatePages (ro : Ro) (a b c : Nat) : (HM.quarantineDeallocatePages ro a b c).Keeps St.Low := by
  unfold HM.quarantineDeallocatePages sysMapFixed sysPurge sysUnmap
  keeps
macro_rules | `(tactic| keep1) => `(tactic| with_reducible exact quarantineDeallocatePages _ _ _ _)
theorem finishLarge (ro : Ro) (a b : Nat) (c : Bool) (p : Option Nat) : (HM.finishLarge ro a b c p).Keeps St.Low := by
  unfold HM.finishLarge
  keeps
macro_rules | `(tactic| keep1) => `(tactic| with_reducible exact finishLarge _ _ _ _ _)
theorem allocateLarge (ro : Ro) (n : Nat) : (HM.allocateLarge ro n).Keeps St.Low := by
  unfold HM.allocateLarge
  keeps
macro_rules | `(tactic| keep1) => `(tactic| with_reducible exact allocateLarge _ _)
theorem allocate (ro : Ro) (a n : Nat) : (HM.allocate ro a n).Keeps St.Low := by
  unfold HM.allocate
  keeps
macro_rules | `(tactic| keep1) => `(tactic| with_reducible exact allocate _ _ _)
theorem deallocateLarge (ro : Ro) (p : Nat) (x : Option Nat) : (HM.deallocateLarge ro p x).Keeps St.Low := by
  unfold HM.deallocateLarge
  keeps
macro_rules | `(tactic| keep1) => `(tactic| with_reducible exact deallocateLarge _ _ _)
theorem allocateOverAligned (ro : Ro) (a n : Nat) : (HM.allocateOverAligned ro a n).Keeps St.Low := by
  unfold HM.allocateOverAligned
  keeps
macro_rules | `(tactic| keep1) => `(tactic| with_reducible exact allocateOverAligned _ _ _)
theorem allocateAligned (ro : Ro) (a b c d : Nat) : (HM.allocateAligned ro a b c d).Keeps St.Low := by
  unfold HM.allocateAligned
  keeps
macro_rules | `(tactic| keep1) => `(tactic| with_reducible exact allocateAligned _ _ _ _ _)
theorem allocAligned (ro : Ro) (a b c d : Nat) : (HM.allocAligned ro a b c d).Keeps St.Low := by
  unfold HM.allocAligned
  keeps
macro_rules | `(tactic| keep1) => `(tactic| with_reducible exact allocAligned _ _ _ _ _)
theorem allocAlignedSimple (ro : Ro) (a b c : Nat) : (HM.allocAlignedSimple ro a b c).Keeps St.Low := by
  unfold HM.allocAlignedSimple
  keeps
macro_rules | `(tactic| keep1) => `(tactic| with_reducible exact allocAlignedSimple _ _ _ _)
theorem alloc (ro : Ro) (a n : Nat) : (HM.alloc ro a n).Keeps St.Low := by
  unfold HM.alloc
  keeps
macro_rules | `(tactic| keep1) => `(tactic| with_reducible exact alloc _ _ _)
theorem hCalloc (ro : Ro) (a n k : Nat) : (HM.hCalloc ro a n k).Keeps St.Low := by
  unfold HM.hCalloc
  keeps
macro_rules | `(tactic| keep1) => `(tactic| with_reducible exact hCalloc _ _ _ _)
theorem reallocCopy (ro : Ro) (a b c d : Nat) : (HM.reallocCopy ro a b c d).Keeps St.Low := by
  unfold HM.reallocCopy
  keeps
macro_rules | `(tactic| keep1) => `(tactic| with_reducible exact reallocCopy _ _ _ _ _)
theorem reallocShrink (ro : Ro) (a b c d : Nat) : (HM.reallocShrink ro a b c d).Keeps St.Low := by
  unfold HM.reallocShrink sysMapFixed
  keeps
macro_rules | `(tactic| keep1) => `(tactic| with_reducible exact reallocShrink _ _ _ _ _)
theorem reallocMove (ro : Ro) (a b c d : Nat) : (HM.reallocMove ro a b c d).Keeps St.Low := by
  unfold HM.reallocMove sysRemap sysUnmap
  keeps
macro_rules | `(tactic| keep1) => `(tactic| with_reducible exact reallocMove _ _ _ _ _)
theorem reallocLarge (ro : Ro) (a b c : Nat) : (HM.reallocLarge ro a b c).Keeps St.Low := by
  unfold HM.reallocLarge
  keeps
macro_rules | `(tactic| keep1) => `(tactic| with_reducible exact reallocLarge _ _ _ _)
theorem reallocSized (ro : Ro) (a b c : Nat) : (HM.reallocSized ro a b c).Keeps St.Low := by
  unfold HM.reallocSized
  keeps
macro_rules | `(tactic| keep1) => `(tactic| with_reducible exact reallocSized _ _ _ _)
theorem hRealloc (ro : Ro) (a b c : Nat) : (HM.hRealloc ro a b c).Keeps St.Low := by
  unfold HM.hRealloc
  keeps
macro_rules | `(tactic| keep1) => `(tactic| with_reducible exact hRealloc _ _ _ _)
theorem hPvalloc (ro : Ro) (a n : Nat) : (HM.hPvalloc ro a n).Keeps St.Low := by
  unfold HM.hPvalloc
  keeps
macro_rules | `(tactic| keep1) => `(tactic| with_reducible exact hPvalloc _ _ _)
theorem hFree (ro : Ro) (p : Nat) : (HM.hFree ro p).Keeps St.Low := by
  unfold HM.hFree
  keeps
macro_rules | `(tactic| keep1) => `(tactic| with_reducible exact hFree _ _)
theorem hFreeSized (ro : Ro) (p n : Nat) : (HM.hFreeSized ro p n).Keeps St.Low := by
  unfold HM.hFreeSized
  keeps
macro_rules | `(tactic| keep1) => `(tactic| with_reducible exact hFreeSized _ _ _)
theorem hUsableSize (ro : Ro) (p : Nat) : (HM.hUsableSize ro p).Keeps St.Low := by
  unfold HM.hUsableSize
  keeps
macro_rules | `(tactic| keep1) => `(tactic| with_reducible exact hUsableSize _ _)
theorem hObjectSize (ro : Ro) (p : Nat) : (HM.hObjectSize ro p).Keeps St.Low := by
  unfold HM.hObjectSize
  keeps
macro_rules | `(tactic| keep1) => `(tactic| with_reducible exact hObjectSize _ _)
theorem hObjectSizeFast (ro : Ro) (p : Nat) : (HM.hObjectSizeFast ro p).Keeps St.Low := by
  unfold HM.hObjectSizeFast
  keeps
macro_rules | `(tactic| keep1) => `(tactic| with_reducible exact hObjectSizeFast _ _)

theorem trimClasses (ro : Ro) (a : Nat) : ∀ n c t, (HM.trimClasses ro a n c t).Keeps St.Low := by
  intro n
  induction n with
  | zero => intro c t; exact Keeps.pure _
  | succ n ih => intro c t; exact Keeps.bind (smallTrim _ _ _) fun _ => ih _ _

theorem trimArenas (ro : Ro) : ∀ n a t, (HM.trimArenas ro n a t).Keeps St.Low := by
  intro n
  induction n with
  | zero => intro a t; exact Keeps.pure _
  | succ n ih => intro a t; exact Keeps.bind (trimClasses _ _ _ _ _) fun _ => ih _ _

theorem sumClasses (ro : Ro) (a : Nat) : ∀ n c t, (HM.sumClasses ro a n c t).Keeps St.Low := by
  intro n
  induction n with
  | zero => intro c t; exact Keeps.pure _
  | succ n ih => intro c t; exact Keeps.bind (readClassStats _ _ _) fun _ => ih _ _

theorem sumArenas (ro : Ro) : ∀ n a t, (HM.sumArenas ro n a t).Keeps St.Low := by
  intro n
  induction n with
  | zero => intro a t; exact Keeps.pure _
  | succ n ih => intro a t; exact Keeps.bind (sumClasses _ _ _ _ _) fun _ => ih _ _

macro_rules | `(tactic| keep1) => `(tactic| with_reducible exact trimArenas _ _ _ _)
macro_rules | `(tactic| keep1) => `(tactic| with_reducible exact sumArenas _ _ _ _)
macro_rules | `(tactic| keep1) => `(tactic| with_reducible exact drawMetaGuard _)
macro_rules | `(tactic| keep1) => `(tactic| with_reducible exact drawGaps _)

theorem hTrim (ro : Ro) : (HM.hTrim ro).Keeps St.Low := by
  unfold HM.hTrim
  keeps

theorem hMallinfo (ro : Ro) : (HM.hMallinfo ro).Keeps St.Low := by
  unfold HM.hMallinfo
  keeps

theorem initSlowPath (g : Cfg) (l : Layout) : (HM.initSlowPath g l).Keeps St.Low := by
  unfold HM.initSlowPath sysProtect reservePages
  keeps

macro_rules | `(tactic| keep1) => `(tactic| with_reducible exact hTrim _)
macro_rules | `(tactic| keep1) => `(tactic| with_reducible exact hMallinfo _)

theorem prog (ro : Ro) (a : Nat) (c : Call) : (c.prog ro a).Keeps St.Low := by
  cases c <;> unfold Call.prog <;> (try unfold hMalloc hPosixMemalign hAlignedAlloc hValloc) <;> keeps

end Low

theorem call_low {ro : Ro} {ar : Nat → Nat} {s s' : Sys} {t : Nat} {c : Call} {chs : Nat → Choice} {x : Ret} (ih : s.σ.Low)
    (hc : s.call ro ar t c chs = .ok (s', x)) : s'.σ.Low := by
  unfold Sys.call at hc
  revert hc
  cases hc : (c.prog ro (ar t)).run chs s.σ (s.tl t) with
  | ok x =>
    obtain ⟨σ, tl, r⟩ := x
    intro hs; cases hs
    exact (Low.prog ro _ c).run ih hc
  | _ => intro hs; cases hs

/-- The first byte of every canary value is zero, in every reachable state. -/
theorem Reach.low {g : Cfg} {ro : Ro} {ar : Nat → Nat} {calm : Bool} {D : Client} {h : List Ev} {s : Sys} (hr : Reach g ro ar calm D h s) : s.σ.Low := by
  induction hr with
  | init hi _ =>
    obtain ⟨l, chs, tl, tl', hrun⟩ := hi
    have hk := Low.initSlowPath g l
    generalize initSlowPath g l = P at hk hrun
    refine hk.run ?_ hrun
    intro a c i
    show byteOf 0#64 0 = 0#8
    decide
  | @step h s s' a e _ _ _ hs ih =>
    cases a with
    | call t c chs =>
      unfold Sys.step at hs
      revert hs
      simp only
      cases hc : s.call ro ar t c chs with
      | ok x =>
        obtain ⟨s1, r⟩ := x
        intro hs; cases hs
        exact call_low ih hc
      | _ => intro hs; cases hs
    | store x v =>
      cases hs; exact ih
    | errno t e => cases hs; exact ih
  | other _ _ _ _ _ ih => exact ih

end HM
