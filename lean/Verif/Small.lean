import Verif.Vm
import Verif.SizeClass
import Verif.Bitmap
import Verif.RandomUniform
import Verif.Libdivide
/-
The slab allocator: one size class of one arena (h_malloc.c:97-139, 247-341, 423-911, 1722-1758, 1877-1947).

With memory tagging (`HAS_ARM_MTE`), the tags of memory and pointers are modelled separately (Mte.lean).
-/
namespace HM

/-- An errno value. -/
abbrev Errno := Nat
/-- errno.h -/
notation "ENOMEM" => (12 : Nat)
/-- errno.h -/
notation "EINVAL" => (22 : Nat)

/-- The environment's choices during one atomic action: the outcome of its k-th system call, the address chosen by mmap,
the raw random draws (16 bit, 64 bit, guard size), and the errno value left by the k-th memory labelling call (prctl,
memory.c:114-120), if it fails. Two calls have an outcome of their own: the remapping of an outgrown region table
(h_malloc.c:1050) and the release of the tail of an over-aligned mapping (pages.c:75). `memtag`: memory tagging has not
been disabled yet. -/
structure Choice where
  sys : Nat → SysRes
  addr : Nat
  u16 : Nat → Nat
  canary : BitVec 64
  guard : Nat
  labelErr : Nat → Option Errno
  growRemap : SysRes
  trailUnmap : SysRes
  memtag : Bool

/-- errno after a labelling call. -/
def Choice.label (ch : Choice) (k : Nat) (e : Errno) : Errno := (ch.labelErr k).getD e

/-- `ro` (h_malloc.c:70-85): values fixed at initialisation. `gap arena class` is the random gap of h_malloc.c:1268-1269. -/
structure Ro where
  g : Cfg
  slabStart : Nat
  gap : Nat → Nat → Nat

/-- h_malloc.c:297 `ARENA_SIZE`. -/
def Ro.arenaSize (ro : Ro) : Nat := ro.g.realClassRegionSize * nClasses ro.g

/-- h_malloc.c:298, 1257 `slab_region_size`, `ro.slab_region_end`. -/
def Ro.slabEnd (ro : Ro) : Nat := ro.slabStart + ro.arenaSize * ro.g.nArena

/-- h_malloc.c:1270 `c->class_region_start`. -/
def Ro.regionStart (ro : Ro) (arena cls : Nat) : Nat :=
  ro.slabStart + ro.arenaSize * arena + ro.g.realClassRegionSize * cls + ro.gap arena cls

/-- `size_classes[class]`. -/
def Cfg.classSize (g : Cfg) (cls : Nat) : Nat := (sizeClasses g).getD cls 0

/-- The slot size: the zero byte class uses 16 (h_malloc.c:600, 780-783). -/
def Cfg.slotSize (g : Cfg) (cls : Nat) : Nat := if g.classSize cls = 0 then 16 else g.classSize cls

/-- h_malloc.c:179-181 `get_slots`. -/
def Cfg.slots (g : Cfg) (cls : Nat) : Nat := (sizeClassSlots g).getD cls 0

/-- `get_slab_size(get_slots(class), size)`. -/
def Cfg.slabSize (g : Cfg) (cls : Nat) : Nat := getSlabSize (g.slots cls) (g.slotSize cls)

/-- `sizeof(struct slab_metadata)` (h_malloc.c:99-124). `count` is padded to 8 bytes unless the tags follow it. -/
def Cfg.sizeofSlabMetadata (g : Cfg) : Nat :=
  let n := 48 + (if g.slabCanary then 8 else 0)
  if g.mte then (n + (if g.slabQuarantine then 8 + 32 else 2) + 129 + 7) / 8 * 8
  else n + 8 + (if g.slabQuarantine then 32 else 0)

/-- h_malloc.c:308-310 `get_metadata_max`. -/
def Cfg.metaMax (g : Cfg) (cls : Nat) : Nat := g.classRegionSize / g.slabSize cls

/-- h_malloc.c:99-124 `struct slab_metadata`. `next`/`prev` are indices into `slab_info`, `none` is NULL. `count` is a
`u16`. -/
structure Slab where
  bitmap : Bitmap
  next : Option Nat
  prev : Option Nat
  canary : BitVec 64
  count : Nat
  qbitmap : Bitmap

/-- Zero pages. -/
def Slab.zero : Slab := ⟨Bitmap.zero, none, none, 0#64, 0, Bitmap.zero⟩

/-- h_malloc.c:247-293 `struct size_class`. The lock, the random state and the two reciprocals are not stored here; the
reciprocals are recomputed from the constants they are made from at initialisation (h_malloc.c:1273-1279). Pointers in
the quarantine arrays are addresses, 0 is NULL. -/
structure SC where
  slabs : Nat → Slab
  qrand : Nat → Nat
  qqueue : Nat → Nat
  qidx : Nat
  partialHead : Option Nat
  emptyHead : Option Nat
  emptyTotal : Nat
  freeHead : Option Nat
  freeTail : Option Nat
  freeQ : Nat → Option Nat
  nmalloc : Nat
  ndalloc : Nat
  allocated : Nat
  slabAllocated : Nat
  metaAllocated : Nat
  metaCount : Nat
  metaUnguarded : Nat

/-- Zero pages (h_malloc.c:1223-1230: a new anonymous mapping). -/
def SC.init : SC :=
  ⟨fun _ => Slab.zero, fun _ => 0, fun _ => 0, 0, none, none, 0, none, none, fun _ => none, 0, 0, 0, 0, 0, 0, 0⟩

/-- Store to the fields of `slab_info[m]`. -/
def SC.upd (c : SC) (m : Nat) (f : Slab → Slab) : SC :=
  { c with slabs := fun k => if k = m then f (c.slabs m) else c.slabs k }

/-- Array store. -/
def setAt {α : Type} (f : Nat → α) (i : Nat) (v : α) : Nat → α := fun k => if k = i then v else f k

/-- h_malloc.c:343-349 `set_used_slot`. -/
def SC.setUsed (c : SC) (m slot : Nat) : SC :=
  c.upd m fun s => { s with bitmap := s.bitmap.set slot, count := (s.count + 1) % 65536 }

/-- h_malloc.c:351-357 `clear_used_slot`. -/
def SC.clearUsed (c : SC) (m slot : Nat) : SC :=
  c.upd m fun s => { s with bitmap := s.bitmap.clear slot, count := (s.count + 65535) % 65536 }

/-- h_malloc.c:365-368 `set_quarantine_slot`. -/
def SC.setQuar (c : SC) (m slot : Nat) : SC := c.upd m fun s => { s with qbitmap := s.qbitmap.set slot }

/-- h_malloc.c:370-373 `clear_quarantine_slot`. -/
def SC.clearQuar (c : SC) (m slot : Nat) : SC := c.upd m fun s => { s with qbitmap := s.qbitmap.clear slot }

/-- h_malloc.c:423-442 `has_free_slots` (`SLAB_METADATA_COUNT` is always defined, h_malloc.c:97). -/
def SC.hasFreeSlots (c : SC) (slots m : Nat) : Bool := decide ((c.slabs m).count < slots)

/-- h_malloc.c:444-451 `is_free_slab`. -/
def SC.isFreeSlab (c : SC) (m : Nat) : Bool := (c.slabs m).count == 0

/-- Set `prev` of the slab a possibly NULL link points to. -/
def SC.setPrev (c : SC) (l : Option Nat) (v : Option Nat) : SC :=
  match l with
  | none => c
  | some m => c.upd m fun s => { s with prev := v }

/-- Set `next` of the slab a possibly NULL link points to. -/
def SC.setNext (c : SC) (l : Option Nat) (v : Option Nat) : SC :=
  match l with
  | none => c
  | some m => c.upd m fun s => { s with next := v }

/-- h_malloc.c:301-304 `get_slab` for metadata index `m`. -/
def slabAddr (base slabSize m : Nat) : Nat := base + m * slabSize

/-- h_malloc.c:463-465 `slot_pointer`. -/
def slotPointer (size slab slot : Nat) : Nat := slab + slot * size

/-- h_malloc.c:313-326: make more metadata usable. `none` is the failure (errno is ENOMEM). System call 0 is the mprotect
of the metadata, whose pages are not part of `Vm`. -/
def growMetadata (g : Cfg) (cls : Nat) (ch : Choice) (c : SC) : Res (Option SC) :=
  if c.metaCount ≥ c.metaAllocated then
    if c.metaCount ≥ g.metaMax cls then .ok none
    else
      match ch.sys 0 with
      | .other => .fatal "non-ENOMEM mprotect failure"
      | .enomem => .ok none
      | .ok =>
          let allocate := max (c.metaAllocated * 2) (PAGE / g.sizeofSlabMetadata)
          .ok (some { c with metaAllocated := min allocate (g.metaMax cls) })
  else .ok (some c)

/-- h_malloc.c:334-339: account for the new slab and, at the end of an interval, for a guard slab. -/
def SC.bumpMetadata (g : Cfg) (c : SC) : SC :=
  if c.metaUnguarded + 1 ≥ g.guardSlabsInterval then { c with metaCount := c.metaCount + 2, metaUnguarded := 0 }
  else { c with metaCount := c.metaCount + 1, metaUnguarded := c.metaUnguarded + 1 }

/-- h_malloc.c:331, 643: make a slab accessible, except in the zero-size class whose slabs stay inaccessible. -/
def protectSlab (nonZero : Bool) (sys : SysRes) (slab slabSize : Nat) (vm : Vm) : Res (Vm × Bool) :=
  if nonZero then memoryProtectRw vm sys slab slabSize else .ok (vm, false)

/-- h_malloc.c:312-341 `alloc_metadata`. The result `none` is NULL. System call 1 is the mprotect of the slab. -/
def allocMetadata (g : Cfg) (base cls : Nat) (nonZero : Bool) (ch : Choice) (c : SC) (vm : Vm) (e : Errno) :
    Res (Option Nat × SC × Vm × Errno) := do
  match ← growMetadata g cls ch c with
  | none => .ok (none, c, vm, ENOMEM)
  | some c => do
      let (vm, failed) ← protectSlab nonZero (ch.sys 1) (slabAddr base (g.slabSize cls) c.metaCount) (g.slabSize cls) vm
      if failed then .ok (none, c, vm, ENOMEM) else .ok (some c.metaCount, c.bumpMetadata g, vm, e)

/-- h_malloc.c:453-461 `get_metadata`: the index of the slab containing `p`. -/
def getMetadata (g : Cfg) (base cls p : Nat) (c : SC) : Res Nat :=
  let offset := sub64 p base
  let index := libdivideU64Do offset (libdivideU64Gen (g.slabSize cls))
  if index ≥ c.metaAllocated then .fatal "invalid free within a slab yet to be used" else .ok index

/-- `libdivide_u32_do((char *)p - (char *)slab, &c->size_divisor)` (h_malloc.c:793, 861, 1737): the argument is
converted to `u32`. -/
def slotIndex (g : Cfg) (base cls p m : Nat) : Nat :=
  libdivideU32Do (sub64 p (slabAddr base (g.slabSize cls) m) % 2 ^ 32) (libdivideU32Gen (g.slotSize cls))

/-- The `u64` at `p` is zero. -/
def Vm.wordZero (vm : Vm) (p : Nat) : Bool := decide (∀ k : Nat, k < 8 → vm.mem (p + k) = 0#8)

/-- h_malloc.c:92-94 `is_memtag_enabled`, in a build with memory tagging. Tagging can be disabled at any time
(h_malloc.c:2170-2189 `h_malloc_disable_memory_tagging`), so whether it is enabled during an action is a choice. The code
reads the flag several times in one action, the model once. -/
def tagging (g : Cfg) (ch : Choice) : Bool := g.memtag && ch.memtag

/-- h_malloc.c:467-483 `write_after_free_check`. -/
def writeAfterFreeCheck (g : Cfg) (tag : Bool) (p n : Nat) (vm : Vm) : Res Unit :=
  if !g.writeAfterFreeCheck || tag then .ok ()
  else if !vm.accessible p n then .segv
  else if decide (∀ i : Nat, i < (n + 7) / 8 → vm.wordZero (p + i * 8) = true) then .ok ()
  else .fatal "detected write after free"

/-- h_malloc.c:486-501 of `set_slab_canary_value` (little endian). -/
def canaryValue (g : Cfg) (r : BitVec 64) : BitVec 64 :=
  let v := r &&& 0xffffffffffffff00#64
  if g.mte && decide (v = 0#64) then 0x100#64 else v

/-- h_malloc.c:485-503 `set_slab_canary_value`. -/
def SC.setCanaryValue (g : Cfg) (ch : Choice) (c : SC) (m : Nat) : SC :=
  if g.slabCanary then c.upd m fun s => { s with canary := canaryValue g ch.canary } else c

/-- Byte `k` of a `u64` in memory (little endian). -/
def byteOf (v : BitVec 64) (k : Nat) : BitVec 8 := (v >>> (8 * k)).setWidth 8

/-- h_malloc.c:505-515 `set_canary`. -/
def setCanary (g : Cfg) (tag : Bool) (canary : BitVec 64) (p size : Nat) (vm : Vm) : Res Vm :=
  if !g.slabCanary || tag then .ok vm
  else
    let a := p + size - 8
    if vm.accessible a 8 then
      .ok { vm with mem := fun x => if inRange a 8 x then byteOf canary (x - a) else vm.mem x }
    else .segv

/-- h_malloc.c:517-538 `check_canary`. -/
def checkCanary (g : Cfg) (tag : Bool) (canary : BitVec 64) (p size : Nat) (vm : Vm) : Res Unit :=
  if !g.slabCanary || tag then .ok ()
  else
    let a := p + size - 8
    if !vm.accessible a 8 then .segv
    else if g.mte && vm.wordZero a then .ok ()
    else if decide (∀ k : Nat, k < 8 → vm.mem (a + k) = byteOf canary k) then .ok ()
    else .fatal "canary corrupted"

/-- h_malloc.c:540-545 `stats_small_allocate`. -/
def SC.statsAlloc (g : Cfg) (c : SC) (size : Nat) : SC :=
  if g.stats then { c with allocated := add64 c.allocated size, nmalloc := add64 c.nmalloc 1 } else c

/-- h_malloc.c:547-552 `stats_small_deallocate`. -/
def SC.statsDealloc (g : Cfg) (c : SC) (size : Nat) : SC :=
  if g.stats then { c with allocated := sub64 c.allocated size, ndalloc := add64 c.ndalloc 1 } else c

/-- h_malloc.c:554-558 `stats_slab_allocate`. -/
def SC.statsSlabAlloc (g : Cfg) (c : SC) (size : Nat) : SC :=
  if g.stats then { c with slabAllocated := add64 c.slabAllocated size } else c

/-- h_malloc.c:560-564 `stats_slab_deallocate`. -/
def SC.statsSlabDealloc (g : Cfg) (c : SC) (size : Nat) : SC :=
  if g.stats then { c with slabAllocated := sub64 c.slabAllocated size } else c

/-- `get_free_slot` then `set_used_slot` (h_malloc.c:620-621, 658-659, 685-686, 704-705). -/
def takeSlot (g : Cfg) (slots : Nat) (ch : Choice) (c : SC) (m : Nat) : Res (Nat × SC) :=
  match getFreeSlot g.slotRandomize slots (u16Uniform (ch.u16 0) slots) (c.slabs m).bitmap with
  | none => if g.slotRandomize then .hang else .fatal "no zero bits"
  | some slot => .ok (slot, c.setUsed m slot)

/-- The memory that `arm_mte_tag_and_clear_mem` (arm_mte.h:26-90) clears; its tags are described in Mte.lean. -/
def clearMem (p size : Nat) (vm : Vm) : Res Vm :=
  if vm.accessible p size then .ok (vm.fill p size 0#8) else .segv

/-- The tail common to the four branches of `allocate_small` (h_malloc.c:623-631, 661-668, 688-695, 716-724): optional
write-after-free check, canary, memory tag. `check` is false in the branches that use a fresh slab. -/
def prepareSlot (g : Cfg) (tag check : Bool) (reqSize size p : Nat) (canary : BitVec 64) (vm : Vm) : Res Vm :=
  if reqSize = 0 then .ok vm
  else do
    if check then writeAfterFreeCheck g tag p (size - g.canarySize) vm
    let vm ← setCanary g tag canary p size vm
    if tag then clearMem p size vm else .ok vm

/-- h_malloc.c:609-636: reuse a cached empty slab `m`. -/
def allocFromEmpty (g : Cfg) (base cls reqSize : Nat) (ch : Choice) (c : SC) (vm : Vm) (e : Errno) (m : Nat) :
    Res (Option Nat × SC × Vm × Errno) := do
  let size := g.slotSize cls
  let slots := g.slots cls
  let slabSize := g.slabSize cls
  let c := { c with emptyHead := (c.slabs m).next, emptyTotal := sub64 c.emptyTotal slabSize }
  let c := c.upd m fun s => { s with next := none, prev := none }
  let c := { c with partialHead := if slots > 1 then some m else none }
  let slab := slabAddr base slabSize m
  let (slot, c) ← takeSlot g slots ch c m
  let p := slotPointer size slab slot
  let vm ← prepareSlot g (tagging g ch) true reqSize size p (c.slabs m).canary vm
  .ok (some p, c.statsAlloc g size, vm, e)

/-- h_malloc.c:648-656: pop the purged slab `m` off the list of purged slabs and make it the only partial slab. -/
def SC.takeFreeHead (c : SC) (slots m : Nat) : SC :=
  let c := { c with freeHead := (c.slabs m).next }
  let c := if c.freeHead = none then { c with freeTail := none } else c
  let c := c.upd m fun s => { s with next := none, prev := none }
  { c with partialHead := if slots > 1 then some m else none }

/-- h_malloc.c:638-674: reuse a purged slab `m`. System call 0 is the mprotect. -/
def allocFromFree (g : Cfg) (base cls reqSize : Nat) (ch : Choice) (c : SC) (vm : Vm) (e : Errno) (m : Nat) :
    Res (Option Nat × SC × Vm × Errno) := do
  let size := g.slotSize cls
  let slots := g.slots cls
  let slabSize := g.slabSize cls
  let c := c.setCanaryValue g ch m
  let slab := slabAddr base slabSize m
  let (vm, failed) ← protectSlab (reqSize ≠ 0) (ch.sys 0) slab slabSize vm
  if failed then .ok (none, c, vm, ENOMEM)
  else do
    let c := c.takeFreeHead slots m
    let (slot, c) ← takeSlot g slots ch c m
    let p := slotPointer size slab slot
    let vm ← prepareSlot g (tagging g ch) false reqSize size p (c.slabs m).canary vm
    .ok (some p, (c.statsSlabAlloc g slabSize).statsAlloc g size, vm, e)

/-- h_malloc.c:676-701: a new slab. -/
def allocFromNew (g : Cfg) (base cls reqSize : Nat) (ch : Choice) (c : SC) (vm : Vm) (e : Errno) :
    Res (Option Nat × SC × Vm × Errno) := do
  let size := g.slotSize cls
  let slots := g.slots cls
  let slabSize := g.slabSize cls
  let (mo, c, vm, e) ← allocMetadata g base cls (reqSize ≠ 0) ch c vm e
  match mo with
  | none => .ok (none, c, vm, e)
  | some m => do
    let c := c.setCanaryValue g ch m
    let c := { c with partialHead := if slots > 1 then some m else none }
    let slab := slabAddr base slabSize m
    let (slot, c) ← takeSlot g slots ch c m
    let p := slotPointer size slab slot
    let vm ← prepareSlot g (tagging g ch) false reqSize size p (c.slabs m).canary vm
    .ok (some p, (c.statsSlabAlloc g slabSize).statsAlloc g size, vm, e)

/-- h_malloc.c:703-728: take a slot of the first partial slab `m`. -/
def allocFromPartial (g : Cfg) (base cls reqSize : Nat) (ch : Choice) (c : SC) (vm : Vm) (e : Errno) (m : Nat) :
    Res (Option Nat × SC × Vm × Errno) := do
  let size := g.slotSize cls
  let slots := g.slots cls
  let slabSize := g.slabSize cls
  let (slot, c) ← takeSlot g slots ch c m
  let c := if !c.hasFreeSlots slots m then
      let c := { c with partialHead := (c.slabs m).next }
      c.setPrev c.partialHead none
    else c
  let slab := slabAddr base slabSize m
  let p := slotPointer size slab slot
  let vm ← prepareSlot g (tagging g ch) true reqSize size p (c.slabs m).canary vm
  .ok (some p, c.statsAlloc g size, vm, e)

/-- h_malloc.c:598-729 `allocate_small`, the critical section for class `cls` (chosen by `get_size_info(reqSize)` in the
caller, h_malloc.c:599-604). The result is the pointer (`none` is NULL) and the new state. -/
def allocateSmall (g : Cfg) (base cls reqSize : Nat) (ch : Choice) (c : SC) (vm : Vm) (e : Errno) :
    Res (Option Nat × SC × Vm × Errno) :=
  match c.partialHead with
  | some m => allocFromPartial g base cls reqSize ch c vm e m
  | none =>
      match c.emptyHead with
      | some m => allocFromEmpty g base cls reqSize ch c vm e m
      | none =>
          match c.freeHead with
          | some m => allocFromFree g base cls reqSize ch c vm e m
          | none => allocFromNew g base cls reqSize ch c vm e

/-- h_malloc.c:750-768 `enqueue_free_slab`; `draw` is the raw random number. With
`FREE_SLABS_QUARANTINE_RANDOM_LENGTH = 0` the array access is out of bounds. -/
def enqueueFreeSlab (g : Cfg) (draw : Nat) (c : SC) (m : Nat) : Res SC :=
  if g.freeSlabsQ = 0 then .ub "free_slabs_quarantine index out of bounds"
  else
    let c := c.upd m fun s => { s with next := none }
    let index := u16Uniform draw g.freeSlabsQ
    let substitute := c.freeQ index
    let c := { c with freeQ := setAt c.freeQ index (some m) }
    match substitute with
    | none => .ok c
    | some sub =>
        let c := match c.freeTail with
          | some t => c.upd t fun s => { s with next := some sub }
          | none => { c with freeHead := some sub }
        .ok { c with freeTail := some sub }

/-- h_malloc.c:787-802, 1732-1746: find the slot of `p` and check that it is in use. `msg1`, `msg2` are the messages. A
slot number past the 256 bits of the bitmap would be an out of bounds access. -/
def findSlot (g : Cfg) (base cls p : Nat) (c : SC) (msg1 msg2 : String) : Res (Nat × Nat) := do
  let m ← getMetadata g base cls p c
  let slot := slotIndex g base cls p m
  if slotPointer (g.slotSize cls) (slabAddr base (g.slabSize cls) m) slot ≠ p then .fatal msg1
  else if 256 ≤ slot then .ub "bitmap index out of bounds"
  else if !(c.slabs m).bitmap.get slot then .fatal msg2
  else .ok (m, slot)

/-- h_malloc.c:803-819: check the canary and zero the slot. -/
def scrubSlot (g : Cfg) (tag : Bool) (cls : Nat) (canary : BitVec 64) (p : Nat) (vm : Vm) : Res Vm :=
  if g.classSize cls = 0 then .ok vm
  else do
    checkCanary g tag canary p (g.slotSize cls) vm
    if tag then clearMem p (g.slotSize cls) vm
    else if g.zeroOnFree then
      if vm.accessible p (g.slotSize cls - g.canarySize) then .ok (vm.fill p (g.slotSize cls - g.canarySize) 0#8)
      else .segv
    else .ok vm

/-- h_malloc.c:827 `quarantine_shift`. -/
def quarantineShift (g : Cfg) (size : Nat) : Nat := sub64 (clz64 size) (63 - g.maxSlabShift)

/-- Number of elements of `quarantine_random`/`quarantine_queue` (h_malloc.c:255-262) for a configured length. -/
def quarantineCap (g : Cfg) (len : Nat) : Nat := len * 2 ^ (g.maxSlabShift - 4)

/-- h_malloc.c:829-842: the random quarantine. The result is the pointer that leaves it (0 is NULL). -/
def pushRandom (g : Cfg) (size : Nat) (ch : Choice) (c : SC) (p : Nat) : Res (SC × Nat) :=
  if g.slabQRandom = 0 then .ok (c, p)
  else
    let len := shl64 g.slabQRandom (quarantineShift g size)
    let i := u16Uniform (ch.u16 1) len
    if quarantineCap g g.slabQRandom ≤ i then .ub "quarantine_random index out of bounds"
    else .ok ({ c with qrand := setAt c.qrand i p }, c.qrand i)

/-- h_malloc.c:844-857: the queue. -/
def pushQueue (g : Cfg) (size : Nat) (c : SC) (p : Nat) : Res (SC × Nat) :=
  if g.slabQQueue = 0 then .ok (c, p)
  else
    let len := shl64 g.slabQQueue (quarantineShift g size)
    if quarantineCap g g.slabQQueue ≤ c.qidx then .ub "quarantine_queue index out of bounds"
    else .ok ({ c with qqueue := setAt c.qqueue c.qidx p, qidx := (c.qidx + 1) % len }, c.qqueue c.qidx)

/-- h_malloc.c:859-863: the slot whose pointer left the quarantine. -/
def leaveQuarantine (g : Cfg) (base cls : Nat) (c : SC) (p : Nat) : Res (SC × Nat × Nat) := do
  let m ← getMetadata g base cls p c
  let slot := slotIndex g base cls p m
  if 256 ≤ slot then .ub "bitmap index out of bounds"
  else .ok (c.clearQuar m slot, m, slot)

/-- h_malloc.c:820-864: both quarantines. `none`: nothing leaves the quarantine. `some (m, slot)`: the slot to release. -/
def quarantineSlot (g : Cfg) (base cls : Nat) (ch : Choice) (c : SC) (p m slot : Nat) : Res (SC × Option (Nat × Nat)) :=
  if !g.slabQuarantine then .ok (c, some (m, slot))
  else if (c.slabs m).qbitmap.get slot then .fatal "double free (quarantine)"
  else do
    let c := c.setQuar m slot
    let (c, p) ← pushRandom g (g.slotSize cls) ch c p
    if p = 0 then .ok (c, none)
    else do
      let (c, p) ← pushQueue g (g.slotSize cls) c p
      if p = 0 then .ok (c, none)
      else do
        let (c, m, slot) ← leaveQuarantine g base cls c p
        .ok (c, some (m, slot))

/-- h_malloc.c:880-889: unlink slab `m` from the partial list. -/
def SC.unlinkPartial (c : SC) (m : Nat) : SC :=
  let c := match (c.slabs m).prev with
    | some q => c.upd q fun s => { s with next := (c.slabs m).next }
    | none => { c with partialHead := (c.slabs m).next }
  let c := c.setPrev (c.slabs m).next (c.slabs m).prev
  c.upd m fun s => { s with prev := none }

/-- h_malloc.c:905-907 (also reached after a failed remap, 900-902): keep the empty slab `m` in the cache. -/
def SC.cacheSlab (g : Cfg) (cls : Nat) (c : SC) (m : Nat) : SC :=
  let c := c.upd m fun s => { s with next := c.emptyHead }
  { c with emptyHead := some m, emptyTotal := add64 c.emptyTotal (g.slabSize cls) }

/-- h_malloc.c:879-910: a slab that became empty. System calls 0 (mmap) and 1 (madvise). -/
def retireSlab (g : Cfg) (base cls : Nat) (ch : Choice) (c : SC) (vm : Vm) (e : Errno) (m : Nat) :
    Res (SC × Vm × Errno) :=
  let slabSize := g.slabSize cls
  let c := c.unlinkPartial m
  if add64 c.emptyTotal slabSize > g.maxEmptySlabsTotal then do
    let slab := slabAddr base slabSize m
    let (vm, failed) ← memoryMapFixed vm (ch.sys 0) slab slabSize
    if failed then do
      let vm ← memoryPurge vm (ch.sys 1) slab slabSize
      .ok (c.cacheSlab g cls m, vm, e)
    else do
      let c ← enqueueFreeSlab g (ch.u16 2) (c.statsSlabDealloc g slabSize) m
      .ok (c, vm, ch.label 0 e)
  else .ok (c.cacheSlab g cls m, vm, e)

/-- h_malloc.c:867-875: a full slab `m` about to lose a slot goes to the front of the partial list. -/
def SC.linkPartial (c : SC) (slots m : Nat) : SC :=
  if !c.hasFreeSlots slots m then
    let c' := c.upd m fun s => { s with next := c.partialHead, prev := none }
    let c' := c'.setPrev c'.partialHead (some m)
    { c' with partialHead := some m }
  else c

/-- h_malloc.c:867-910: release a slot. -/
def releaseSlot (g : Cfg) (base cls : Nat) (ch : Choice) (c : SC) (vm : Vm) (e : Errno) (m slot : Nat) :
    Res (SC × Vm × Errno) :=
  let c := (c.linkPartial (g.slots cls) m).clearUsed m slot
  if c.isFreeSlab m then retireSlab g base cls ch c vm e m
  else .ok (c, vm, e)

/-- h_malloc.c:771-911 `deallocate_small`, the critical section for class `cls` (found from the address by the caller,
h_malloc.c:772-775). `expected` is `*expected_size`. -/
def deallocateSmall (g : Cfg) (base cls p : Nat) (expected : Option Nat) (ch : Choice) (c : SC) (vm : Vm) (e : Errno) :
    Res (SC × Vm × Errno) :=
  if expected.any (· ≠ g.classSize cls) then .fatal "sized deallocation mismatch (small)"
  else do
    let c := c.statsDealloc g (g.slotSize cls)
    let (m, slot) ← findSlot g base cls p c "invalid unaligned free" "double free"
    let vm ← scrubSlot g (tagging g ch) cls (c.slabs m).canary p vm
    let (c, out) ← quarantineSlot g base cls ch c p m slot
    match out with
    | none => .ok (c, vm, e)
    | some (m, slot) => releaseSlot g base cls ch c vm e m slot

/-- h_malloc.c:1747-1749: check the canary, except in the zero byte class. -/
def checkSlotCanary (g : Cfg) (tag : Bool) (cls : Nat) (canary : BitVec 64) (p : Nat) (vm : Vm) : Res Unit :=
  if g.classSize cls ≠ 0 then checkCanary g tag canary p (g.slotSize cls) vm else .ok ()

/-- h_malloc.c:1722-1758 `memory_corruption_check_small`. -/
def memoryCorruptionCheckSmall (g : Cfg) (tag : Bool) (base cls p : Nat) (c : SC) (vm : Vm) : Res Unit := do
  let (m, slot) ← findSlot g base cls p c "invalid unaligned malloc_usable_size" "invalid malloc_usable_size"
  checkSlotCanary g tag cls (c.slabs m).canary p vm
  if g.slabQuarantine && (c.slabs m).qbitmap.get slot then .fatal "invalid malloc_usable_size (quarantine)"
  else .ok ()

/-- h_malloc.c:1895-1911: the loop over the cached slabs in `malloc_trim`, from `iterator` on. Iteration `k` uses system
call, random draw and label `k`. `fuel` bounds the number of iterations; running out of it is reported as `hang`. -/
def trimLoop (g : Cfg) (base cls : Nat) (ch : Choice) :
    Nat → Nat → Option Nat → Bool → SC → Vm → Errno → Res (Nat × Option Nat × Bool × SC × Vm × Errno)
  | 0, _, _, _, _, _, _ => .hang
  | _ + 1, k, none, trimmed, c, vm, e => .ok (k, none, trimmed, c, vm, e)
  | fuel + 1, k, some it, trimmed, c, vm, e => do
      let slabSize := g.slabSize cls
      let (vm, failed) ← memoryMapFixed vm (ch.sys k) (slabAddr base slabSize it) slabSize
      if failed then .ok (k, some it, trimmed, c, vm, ENOMEM)
      else do
        let next := (c.slabs it).next
        let c := c.statsSlabDealloc g slabSize
        let c := { c with emptyTotal := sub64 c.emptyTotal slabSize }
        let c ← enqueueFreeSlab g (ch.u16 k) c it
        trimLoop g base cls ch fuel (k + 1) next true c vm (ch.label k e)

/-- h_malloc.c:1920-1925, 1930-1935: purge the memory of every quarantined allocation in the first `len` entries of a
quarantine array, starting with entry `i`. -/
def purgeEntries (arr : Nat → Nat) (size : Nat) (ch : Choice) (k0 : Nat) : Nat → Nat → Vm → Errno → Res (Vm × Errno)
  | 0, _, vm, e => .ok (vm, e)
  | n + 1, i, vm, e =>
      if arr i = 0 then purgeEntries arr size ch k0 n (i + 1) vm e
      else do
        let vm ← memoryPurge vm (ch.sys (k0 + i)) (arr i) size
        purgeEntries arr size ch k0 n (i + 1) vm (if ch.sys (k0 + i) = .ok then e else ENOMEM)

/-- h_malloc.c:1914-1938: purge quarantined allocations of the extended size classes. -/
def trimPurge (g : Cfg) (cls : Nat) (ch : Choice) (k0 : Nat) (c : SC) (vm : Vm) (e : Errno) : Res (Vm × Errno) :=
  if g.slabQuarantine && g.extended && decide (20480 ≤ g.classSize cls) then do
    let shift := quarantineShift g (g.classSize cls)
    let lenR := shl64 g.slabQRandom shift
    let lenQ := shl64 g.slabQQueue shift
    if quarantineCap g g.slabQRandom < lenR ∨ quarantineCap g g.slabQQueue < lenQ then
      .ub "quarantine array index out of bounds"
    else do
      let (vm, e) ← if g.slabQRandom = 0 then .ok (vm, e) else purgeEntries c.qrand (g.classSize cls) ch k0 lenR 0 vm e
      if g.slabQQueue = 0 then .ok (vm, e) else purgeEntries c.qqueue (g.classSize cls) ch (k0 + lenR) lenQ 0 vm e
  else .ok (vm, e)

/-- h_malloc.c:1893-1940: the critical section of `malloc_trim` for one class (`class ≥ 1`). The boolean is true if a
slab was released. -/
def trimClass (g : Cfg) (base cls : Nat) (ch : Choice) (c : SC) (vm : Vm) (e : Errno) : Res (Bool × SC × Vm × Errno) := do
  let (k, it, trimmed, c, vm, e) ← trimLoop g base cls ch (c.metaCount + 1) 0 c.emptyHead false c vm e
  let c := { c with emptyHead := it }
  let (vm, e) ← trimPurge g cls ch (k + 1) c vm e
  .ok (trimmed, c, vm, e)

end HM
