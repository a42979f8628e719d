import Verif.Machine
import Verif.SmallInv
/-
Parts of the state: which of them a section in which a lock is held uses, and the combination of two states.
-/
namespace HM

/-- A part of the shared state: the metadata of a size class, the data of the region allocator, the protection of a page, a
byte of memory. -/
inductive Cell where
  | sc (a c : Nat)
  | regs
  | prot (pg : Nat)
  | mem (x : Nat)

/-- Byte `x` may be in use by somebody who holds no lock: it is a usable byte of a live slot of the class `cls` with slabs
at `base`, other than the slot at `frees`. -/
def InUse (g : Cfg) (base cls : Nat) (c : SC) (frees : Option Nat) (x : Nat) : Prop :=
  ∃ i k, c.live i k = true ∧ frees ≠ some (slotAddr g base cls i k) ∧ g.classSize cls ≠ 0 ∧
    inRange (slotAddr g base cls i k) (g.slotSize cls - g.canarySize) x

/-- The parts of the state that a section uses. For a size class: its metadata, the protections of the pages of its slabs,
and the bytes of its slabs except for those that are in use by others. -/
def Sect.uses (ro : Ro) (σ : St) : Sect → Cell → Prop
  | .cls a c _, .sc a' c' => a' = a ∧ c' = c
  | .cls a c _, .prot pg => inPages (ro.regionStart a c) (ro.g.metaMax c * ro.g.slabSize c) pg
  | .cls a c fr, .mem x => inRange (ro.regionStart a c) (ro.g.metaMax c * ro.g.slabSize c) x ∧ ¬ InUse ro.g (ro.regionStart a c) c (σ.sc a c) fr x
  | .regions _ _, .regs => True
  | _, _ => False

/-- The parts of the state that may be in disorder while the section runs: those that it uses, except for the protections of
pages with bytes that are in use by others. -/
def Sect.upsets (ro : Ro) (σ : St) (s : Sect) (l : Cell) : Prop :=
  s.uses ro σ l ∧
    match s, l with
    | .cls a c fr, .prot pg => ∀ x, x / PAGE = pg → ¬ InUse ro.g (ro.regionStart a c) c (σ.sc a c) fr x
    | _, _ => True

/-- Two states agree on a part. -/
def St.agree (σ τ : St) : Cell → Prop
  | .sc a c => σ.sc a c = τ.sc a c
  | .regs => σ.rt = τ.rt ∧ σ.qr = τ.qr ∧ σ.qq = τ.qq ∧ σ.qi = τ.qi ∧ σ.largeAllocated = τ.largeAllocated
  | .prot pg => σ.vm.prot pg = τ.vm.prot pg
  | .mem x => σ.vm.mem x = τ.vm.mem x

open Classical in
/-- Memory `vm` with the pages in `P` and the bytes in `B` taken from `ν`. -/
noncomputable def Vm.patch (vm : Vm) (P B : Nat → Prop) (ν : Vm) : Vm :=
  ⟨fun pg => if P pg then ν.prot pg else vm.prot pg, fun x => if B x then ν.mem x else vm.mem x⟩

open Classical in
/-- State `σ` with the parts in `N` taken from `ν`. -/
noncomputable def St.patch (σ : St) (N : Cell → Prop) (ν : St) : St where
  vm := σ.vm.patch (fun pg => N (.prot pg)) (fun x => N (.mem x)) ν.vm
  sc := fun a c => if N (.sc a c) then ν.sc a c else σ.sc a c
  rt := if N .regs then ν.rt else σ.rt
  qr := if N .regs then ν.qr else σ.qr
  qq := if N .regs then ν.qq else σ.qq
  qi := if N .regs then ν.qi else σ.qi
  largeAllocated := if N .regs then ν.largeAllocated else σ.largeAllocated

/-- Same outcome, with results related by `R`. -/
def Res.Rel {α β : Type} (R : α → β → Prop) : Res α → Res β → Prop
  | .ok a, .ok b => R a b
  | .fatal m, .fatal m' => m = m'
  | .segv, .segv => True
  | .ub w, .ub w' => w = w'
  | .hang, .hang => True
  | _, _ => False

end HM
