import Verif.Conc
import Verif.Mte
/-
Memory tagging (HAS_ARM_MTE) in executions in which the calls of any number of threads are interleaved: the tags of Mte.lean as an addition to the machine of Conc.lean.

In the code the tags of a slot are changed while the lock of its size class is held, in the section in which the slot is allocated or freed (h_malloc.c:623-631, 661-668, 688-695, 716-724
in `allocate_small`, :803-813 in `deallocate_small`), so in the action of Conc.lean that changes the bits of the slot. That is how the change of tags is found here: slots that are in use after an
action and were not before are tagged, and the memory of slots that are no longer in use gets the tag 0.

Simplifications. If an action changed several slots, their tags would be changed in any order (no action does). The machine underneath may treat tagging as enabled or disabled in each action, which
only matters for canaries and for clearing slots; the tags are changed in any case. What becomes of the tags when tagging is disabled is not described here.
Pointers are given without their tags: the tag of a pointer to a block is the one that was chosen when the block was allocated (`realloc` returns the pointer it was given,
with its tag, when it leaves the block where it is, h_malloc.c:1519, 1526), and 0 for a large block.
-/
namespace HM

/-- A slot is allocated and gets a tag, or is freed. -/
inductive SlotEv where
  | born (p tag : Nat)
  | died (p : Nat)

/-- The address of the slot. -/
def SlotEv.addr : SlotEv → Nat
  | .born p _ => p
  | .died p => p

/-- The slot at `p` is in use: it is marked in `bitmap` and not in `quarantine_bitmap` (h_malloc.c:99-110). -/
def SlotInUse (ro : Ro) (σ : St) (p : Nat) : Prop :=
  ∃ a c i k, a < ro.g.nArena ∧ c < nClasses ro.g ∧ p = slotAddr ro.g (ro.regionStart a c) c i k ∧
    ((σ.sc a c).slabs i).bitmap.bit k = true ∧ ((σ.sc a c).slabs i).qbitmap.bit k = false

/-- Slots are allocated (h_malloc.c:567-595, see `Tags.alloc`) and freed (h_malloc.c:803-813, see `Tags.free`), the last one first in the list. -/
inductive TagRun (ro : Ro) (sys : Nat → Bool) (T : Tags) : List SlotEv → Tags → Prop where
  | nil : TagRun ro sys T [] T
  | born {l : List SlotEv} {T' : Tags} (h : TagRun ro sys T l T') (r p : Nat) : TagRun ro sys T (.born p (T'.alloc ro sys r p).2 :: l) (T'.alloc ro sys r p).1
  | died {l : List SlotEv} {T' : Tags} (h : TagRun ro sys T l T') (p : Nat) : TagRun ro sys T (.died p :: l) (T'.free ro p)

/-- What an action that leads from `σ` to `σ'` does to the tags: `l` are the slots that it allocates and frees. Pages that it releases lose their tags (`Tags.remap`). -/
def TagStep (ro : Ro) (sys : Nat → Bool) (σ σ' : St) (T : Tags) (l : List SlotEv) (T' : Tags) : Prop :=
  ∃ T1, TagRun ro sys T l T1 ∧ T' = T1.remap σ.vm.prot σ'.vm.prot ∧ (l.map SlotEv.addr).Nodup ∧
    (∀ p, (∃ t, .born p t ∈ l) ↔ ¬ SlotInUse ro σ p ∧ SlotInUse ro σ' p) ∧ ∀ p, .died p ∈ l ↔ SlotInUse ro σ p ∧ ¬ SlotInUse ro σ' p

/-- The states that are reachable with threads and memory tagging; `L` are the slots that have been allocated and freed so far, with the tags chosen, the last one first. -/
inductive CTReach (g : Cfg) (ro : Ro) (ar : Nat → Nat) (calm : Bool) (sys : Nat → Bool) : List CEv → CSys → List SlotEv → Tags → Prop where
  | init {σ : St} {tl : Nat → Tl} (hmt : g.memtag = true) (h : Initialised g ro σ) (htl : ∀ t, (tl t).unsealed = false) :
      CTReach g ro ar calm sys [] ⟨σ, tl, fun _ => none, fun _ => σ⟩ [] (Tags.init ro)
  | step {h h' : List CEv} {s s' : CSys} {L l : List SlotEv} {T T' : Tags} (r : CTReach g ro ar calm sys h s L T) (st : CStep ro ar calm h s h' s')
      (ht : TagStep ro sys s.σ s'.σ T l T') : CTReach g ro ar calm sys h' s' (l ++ L) T'

/-- Any number of steps, with the tags. -/
inductive CTSteps (ro : Ro) (ar : Nat → Nat) (calm : Bool) (sys : Nat → Bool) (h0 : List CEv) (s0 : CSys) (L0 : List SlotEv) (T0 : Tags) :
    List CEv → CSys → List SlotEv → Tags → Prop where
  | refl : CTSteps ro ar calm sys h0 s0 L0 T0 h0 s0 L0 T0
  | tail {h h' : List CEv} {s s' : CSys} {L l : List SlotEv} {T T' : Tags} (r : CTSteps ro ar calm sys h0 s0 L0 T0 h s L T) (st : CStep ro ar calm h s h' s')
      (ht : TagStep ro sys s.σ s'.σ T l T') : CTSteps ro ar calm sys h0 s0 L0 T0 h' s' (l ++ L) T'

/-- The tags that the slot at `p` has been given, the last one first. -/
def tagsOf (p : Nat) (L : List SlotEv) : List Nat := L.filterMap fun e => match e with | .born q t => if q = p then some t else none | .died _ => none

/-- The tag of a pointer to the block at `p`: the last tag that the slot has been given; 0 if it has not been given any, as is the case for large blocks. -/
def ptrTag (p : Nat) (L : List SlotEv) : Nat := (tagsOf p L).headD 0

end HM
