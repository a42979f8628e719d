import Verif.Small
import Verif.Table
/-
The whole allocator state, and programs: the API functions as sequences of atomic actions. An action is a critical
section (everything between a `mutex_lock` and the matching `mutex_unlock`), a system call made outside of any lock, or
an access to memory owned by the caller. Between two actions of one thread any other thread may run.
-/
namespace HM

/-- The state shared by all threads: memory, `ro.size_class_metadata` (h_malloc.c:75), and `struct region_allocator`
(h_malloc.c:927-943). Quarantine entries are (address, size), address 0 is NULL. -/
structure St where
  vm : Vm
  sc : Nat → Nat → SC
  rt : RegTable
  qr : Nat → Nat × Nat
  qq : Nat → Nat × Nat
  qi : Nat
  largeAllocated : Nat

/-- Thread-local state: errno, and whether the metadata is accessible to this thread (h_malloc.c:1129-1146). -/
structure Tl where
  errno : Errno
  unsealed : Bool
  deriving DecidableEq

/-- A section in which a lock is held: the lock of a size class of an arena (`c->lock`, h_malloc.c:247-248), or the lock of
the region allocator (h_malloc.c:928). In a section that frees a slot, `frees` is the address of that slot;
`quar` says whether the section puts a region into the quarantine, and `uncounted` whether it records a region that the
statistics leave out (h_malloc.c:1430-1444). -/
inductive Sect where
  | cls (arena cls : Nat) (frees : Option Nat)
  | regions (quar uncounted : Bool)
  deriving DecidableEq

/-- A program: a sequence of atomic actions. `l` says which lock is held during the action, if any. -/
inductive Prog (α : Type) : Type 1 where
  | ret (a : α) : Prog α
  | act {β : Type} {l : Option Sect} (f : Choice → St → Tl → Res (St × Tl × β)) (k : β → Prog α) : Prog α

/-- Sequencing. -/
def Prog.bind {α β : Type} : Prog α → (α → Prog β) → Prog β
  | .ret a, f => f a
  | .act (l := l) g k, f => .act (l := l) g fun b => (k b).bind f

instance : Monad Prog where
  pure := .ret
  bind := .bind

/-- One action, made without holding a lock. -/
def Prog.one {β : Type} (f : Choice → St → Tl → Res (St × Tl × β)) : Prog β := .act (l := none) f .ret

/-- Run a program to completion with no other thread in between; action `n`, `n+1`, ... use the choices `chs n`, ... -/
def Prog.run {α : Type} : Prog α → (Nat → Choice) → St → Tl → Res (St × Tl × α)
  | .ret a, _, σ, tl => .ok (σ, tl, a)
  | .act f k, chs, σ, tl =>
      match f (chs 0) σ tl with
      | .ok (σ, tl, b) => (k b).run (fun n => chs (n + 1)) σ tl
      | .fatal m => .fatal m
      | .segv => .segv
      | .ub w => .ub w
      | .hang => .hang

/-! ### Local actions -/

/-- `errno = e`. -/
def setErrno (e : Errno) : Prog Unit := .one fun _ σ tl => .ok (σ, { tl with errno := e }, ())

/-- `errno`. -/
def getErrno : Prog Errno := .one fun _ σ tl => .ok (σ, tl, tl.errno)

/-- h_malloc.c:1138-1140 `thread_unseal_metadata`. -/
def unsealMeta : Prog Unit := .one fun _ σ tl => .ok (σ, { tl with unsealed := true }, ())

/-- h_malloc.c:1142-1146 `thread_seal_metadata`. -/
def sealMeta : Prog Unit := .one fun _ σ tl => .ok (σ, { tl with unsealed := false }, ())

/-- `fatal_error(msg)`. -/
def die {α : Type} (msg : String) : Prog α := .act (β := Empty) (l := none) (fun _ _ _ => .fatal msg) (fun b => nomatch b)

/-- A critical section (from `mutex_lock` to `mutex_unlock`): it accesses metadata, which is only possible for a thread that
has unsealed it (with `CONFIG_SEAL_METADATA`). -/
def critical {β : Type} (ro : Ro) (s : Sect) (f : Choice → St → Errno → Res (St × Errno × β)) : Prog β :=
  .act (l := some s) (k := .ret) fun ch σ tl =>
    if ro.g.sealMetadata && !tl.unsealed then .segv
    else
      match f ch σ tl.errno with
      | .ok (σ, e, b) => .ok (σ, { tl with errno := e }, b)
      | .fatal m => .fatal m
      | .segv => .segv
      | .ub w => .ub w
      | .hang => .hang

/-! ### System calls made outside of any lock -/

/-- memory.c:20-29 `memory_map`, followed by `memory_set_name` if it succeeds (pages.c:18-22, 50-54). -/
def sysMap (size : Nat) : Prog (Option Nat) :=
  .one fun ch σ tl =>
    match memoryMap σ.vm (ch.sys 0) ch.addr size with
    | .ok (vm, some a) => .ok ({ σ with vm := vm }, { tl with errno := ch.label 0 tl.errno }, some a)
    | .ok (vm, none) => .ok ({ σ with vm := vm }, { tl with errno := ENOMEM }, none)
    | .fatal m => .fatal m
    | .segv => .segv
    | .ub w => .ub w
    | .hang => .hang

/-- Run a memory.c wrapper that returns `true` on failure; a failure leaves ENOMEM in errno, a success is followed by a
labelling call if `label` is set. -/
def sysCall (label : Bool) (f : Choice → Vm → Res (Vm × Bool)) : Prog Bool :=
  .one fun ch σ tl =>
    match f ch σ.vm with
    | .ok (vm, failed) =>
        .ok ({ σ with vm := vm },
          { tl with errno := if failed then ENOMEM else if label then ch.label 0 tl.errno else tl.errno }, failed)
    | .fatal m => .fatal m
    | .segv => .segv
    | .ub w => .ub w
    | .hang => .hang

/-- memory.c:45-52 `memory_map_fixed`, followed by `memory_set_name` if it succeeds (h_malloc.c:979-983, 1553-1557). -/
def sysMapFixed (ptr size : Nat) : Prog Bool := sysCall true fun ch vm => memoryMapFixed vm (ch.sys 0) ptr size
/-- memory.c:54-60 `memory_unmap`. -/
def sysUnmap (ptr size : Nat) : Prog Bool := sysCall false fun ch vm => memoryUnmap vm (ch.sys 0) ptr size
/-- memory.c:54-60 `memory_unmap`, the call of pages.c:75. -/
def sysUnmapTrail (ptr size : Nat) : Prog Bool := sysCall false fun ch vm => memoryUnmap vm ch.trailUnmap ptr size
/-- memory.c:62-80 `memory_protect_rw`. -/
def sysProtect (ptr size : Nat) : Prog Bool := sysCall false fun ch vm => memoryProtectRw vm (ch.sys 0) ptr size
/-- memory.c:96-103 `memory_remap_fixed`. -/
def sysRemap (old oldSize new newSize : Nat) : Prog Bool :=
  sysCall false fun ch vm => memoryRemapFixed vm (ch.sys 0) old oldSize new newSize
/-- memory.c:106-112 `memory_purge`. -/
def sysPurge (ptr size : Nat) : Prog Bool := sysCall false fun ch vm =>
  match memoryPurge vm (ch.sys 0) ptr size with
  | .ok vm => .ok (vm, decide (ch.sys 0 ≠ .ok))
  | .fatal m => .fatal m
  | .segv => .segv
  | .ub w => .ub w
  | .hang => .hang

/-- `memcpy(dst, src, n)`. -/
def memCopy (dst src n : Nat) : Prog Unit :=
  .one fun _ σ tl =>
    if σ.vm.accessible dst n && σ.vm.accessible src n then .ok ({ σ with vm := σ.vm.copy dst src n }, tl, ()) else .segv

/-- `memset(p, 0, n)`. -/
def memZero (p n : Nat) : Prog Unit :=
  .one fun _ σ tl =>
    if σ.vm.accessible p n then .ok ({ σ with vm := σ.vm.fill p n 0#8 }, tl, ()) else .segv

/-! ### pages.c -/

/-- pages.c:7-10 `add_guards`; `none` is overflow. -/
def addGuards (size guard : Nat) : Option Nat :=
  if W64 ≤ size + guard then none else if W64 ≤ size + guard + guard then none else some (size + guard + guard)

/-- pages.c:12-29 `allocate_pages` with `unprotect` true (the only use after initialisation). -/
def allocatePages (usableSize guard : Nat) : Prog (Option Nat) :=
  match addGuards usableSize guard with
  | none => do
      setErrno ENOMEM
      return none
  | some realSize => do
      match ← sysMap realSize with
      | none => return none
      | some real => do
          if ← sysProtect (real + guard) usableSize then
            let _ ← sysUnmap real realSize
            return none
          else return some (real + guard)

/-- pages.c:67-81: release the two ends of the mapping made by `allocate_pages_aligned`. -/
def trimMapping (real realAllocSize lead base usableSize guard trail : Nat) : Prog (Option Nat) := do
  if ← (if lead ≠ 0 then sysUnmap real lead else pure false) then
    let _ ← sysUnmap real realAllocSize
    return none
  else if ← (if trail ≠ 0 then sysUnmapTrail (base + usableSize + guard) trail else pure false) then
    let _ ← sysUnmap real realAllocSize
    return none
  else return some base

/-- pages.c:50-81: the part of `allocate_pages_aligned` after the size computations. -/
def mapAligned (usableSize alignment guard allocSize realAllocSize : Nat) : Prog (Option Nat) := do
  match ← sysMap realAllocSize with
  | none => return none
  | some real => do
      let usable := real + guard
      let lead := sub64 (align usable alignment) usable
      let trail := sub64 (sub64 allocSize lead) usableSize
      let base := usable + lead
      if ← sysProtect base usableSize then
        let _ ← sysUnmap real realAllocSize
        return none
      else trimMapping real realAllocSize lead base usableSize guard trail

/-- pages.c:31-82 `allocate_pages_aligned`. -/
def allocatePagesAligned (usableSize alignment guard : Nat) : Prog (Option Nat) :=
  let usableSize := pageAlign usableSize
  if usableSize = 0 then do
    setErrno ENOMEM
    return none
  else if W64 ≤ usableSize + sub64 alignment PAGE then do
    setErrno ENOMEM
    return none
  else
    let allocSize := usableSize + sub64 alignment PAGE
    match addGuards allocSize guard with
    | none => do
        setErrno ENOMEM
        return none
    | some realAllocSize => mapAligned usableSize alignment guard allocSize realAllocSize

/-- pages.c:84-88 `deallocate_pages`. -/
def deallocatePages (usable usableSize guard : Nat) : Prog Unit := do
  if ← sysUnmap (usable - guard) (usableSize + guard * 2) then
    let _ ← sysPurge usable usableSize
    return ()
  else return ()

/-! ### Large allocations (h_malloc.c:945-1119, 1340-1445) -/

/-- h_malloc.c:1340-1342 `get_guard_size`. The random number is any number below the bound
(`get_random_u64_uniform`, see RandomUniform.lean; with bound 0 it is 0). -/
def guardSize (g : Cfg) (ch : Choice) (size : Nat) : Nat :=
  (ch.guard % max 1 (size / PAGE / g.guardSizeDivisor) + 1) * PAGE

/-- h_malloc.c:1353-1355, 1426-1428. -/
def drawGuard (ro : Ro) (size : Nat) : Prog Nat := critical ro (.regions false false) fun ch σ e => .ok (σ, e, guardSize ro.g ch size)

/-- h_malloc.c:925 `MAX_REGION_TABLE_SIZE`. -/
def Cfg.maxRegionTable (g : Cfg) : Nat := g.classRegionSize / PAGE / 24

/-- h_malloc.c:1362-1369, 1435-1441: record a new region; `stats` is false for over-aligned allocations, which the code
does not count. `false`: the table cannot grow. System call 0 is the mprotect of the other table. Simplification: any
other failure of the calls made by `regions_grow` is fatal even when a check before the call already refused to grow. -/
def insertRegion (ro : Ro) (p size guard : Nat) (stats : Bool) : Prog Bool := critical ro (.regions false (!stats)) fun ch σ e =>
  if σ.rt.free * 4 < σ.rt.total ∧ (ch.sys 0 = .other ∨ ch.growRemap = .other) then
    .fatal "non-ENOMEM mprotect failure"
  else
    match regionsInsert hashPage ro.g.maxRegionTable (decide (ch.sys 0 = .ok)) (decide (ch.growRemap = .ok)) σ.rt
        ⟨p, size, guard⟩ with
    | .ok (some rt) =>
        .ok ({ σ with rt := rt, largeAllocated :=
          if ro.g.stats && stats then add64 σ.largeAllocated size else σ.largeAllocated },
          (if σ.rt.free * 4 < σ.rt.total then ch.label 0 (if ch.growRemap = .ok then e else ENOMEM) else e), true)
    | .ok none =>
        .ok (σ, (if σ.rt.total > (W64 - 1) / 24 / 2 ∨ σ.rt.total * 2 > ro.g.maxRegionTable then e else ENOMEM), false)
    | .fatal m => .fatal m
    | .segv => .segv
    | .ub w => .ub w
    | .hang => .hang

/-- `regions_find` (h_malloc.c:1081-1092) and reading the entry. -/
def lookupRegion (rt : RegTable) (p : Nat) : Res (Option (Nat × RegionMeta)) :=
  match regionsFind hashPage rt p with
  | .ok (some i) => .ok (some (i, rt.tab i))
  | .ok none => .ok none
  | .fatal m => .fatal m
  | .segv => .segv
  | .ub w => .ub w
  | .hang => .hang

/-- h_malloc.c:1535-1547, 1779-1786: look a region up; `msg` is the message of the fatal error. -/
def findRegion (ro : Ro) (p : Nat) (msg : String) : Prog (Nat × Nat) := critical ro (.regions false false) fun _ σ e =>
  match lookupRegion σ.rt p with
  | .ok (some (_, r)) => .ok (σ, e, (r.size, r.guard))
  | .ok none => .fatal msg
  | .fatal m => .fatal m
  | .segv => .segv
  | .ub w => .ub w
  | .hang => .hang

/-- h_malloc.c:1384-1396, 1607-1614: look a region up, check the expected size, and delete it. -/
def removeRegion (ro : Ro) (p : Nat) (expected : Option Nat) (msg : String) : Prog (Nat × Nat) := critical ro (.regions false false) fun _ σ e =>
  match lookupRegion σ.rt p with
  | .ok (some (i, r)) =>
      if expected.any (fun s => r.size ≠ getLargeSizeClass ro.g s) then .fatal "sized deallocation mismatch (large)"
      else
        match regionsDelete hashPage σ.rt i with
        | .ok rt =>
            .ok ({ σ with rt := rt, largeAllocated :=
              if ro.g.stats then sub64 σ.largeAllocated r.size else σ.largeAllocated }, e, (r.size, r.guard))
        | .fatal m => .fatal m
        | .segv => .segv
        | .ub w => .ub w
        | .hang => .hang
  | .ok none => .fatal msg
  | .fatal m => .fatal m
  | .segv => .segv
  | .ub w => .ub w
  | .hang => .hang

/-- h_malloc.c:1561-1568: record the new size after shrinking in place. -/
def resizeRegion (ro : Ro) (p oldSize size : Nat) : Prog Unit := critical ro (.regions false false) fun _ σ e =>
  match lookupRegion σ.rt p with
  | .ok (some (i, r)) =>
      .ok ({ σ with rt := σ.rt.setTab (σ.rt.tab.set i { r with size := size }), largeAllocated :=
        if ro.g.stats then sub64 σ.largeAllocated (oldSize - size) else σ.largeAllocated }, e, ())
  | .ok none => .fatal "invalid realloc"
  | .fatal m => .fatal m
  | .segv => .segv
  | .ub w => .ub w
  | .hang => .hang

/-- h_malloc.c:992-1001: the random quarantine of regions, and the entry that leaves it. -/
def pushRegionRandom (g : Cfg) (ch : Choice) (σ : St) (t : Nat × Nat) : St × (Nat × Nat) :=
  if g.regionQRandom = 0 then (σ, t)
  else
    let i := ch.guard % g.regionQRandom
    ({ σ with qr := setAt σ.qr i t }, σ.qr i)

/-- h_malloc.c:1003-1008: the queue of regions, and the entry that leaves it. -/
def pushRegionQueue (g : Cfg) (σ : St) (t : Nat × Nat) : St × (Nat × Nat) :=
  if g.regionQQueue = 0 then (σ, t)
  else ({ σ with qq := setAt σ.qq σ.qi t, qi := (σ.qi + 1) % g.regionQQueue }, σ.qq σ.qi)

/-- h_malloc.c:990-1010: put a region into the quarantine; the result is the entry to unmap. -/
def quarantineRegion (ro : Ro) (t : Nat × Nat) : Prog (Option (Nat × Nat)) := critical ro (.regions true false) fun ch σ e =>
  let r := pushRegionRandom ro.g ch σ t
  if r.2.1 = 0 then .ok (r.1, e, none)
  else
    let r := pushRegionQueue ro.g r.1 r.2
    .ok (r.1, e, if r.2.1 = 0 then none else some r.2)

/-- h_malloc.c:973-1015 `regions_quarantine_deallocate_pages`. -/
def quarantineDeallocatePages (ro : Ro) (p size guard : Nat) : Prog Unit :=
  if !ro.g.regionQuarantine || decide (ro.g.regionQSkip ≤ size) then deallocatePages p size guard
  else do
    if ← sysMapFixed p size then
      let _ ← sysPurge p size
      pure ()
    match ← quarantineRegion ro (p - guard, size + guard * 2) with
    | none => return ()
    | some t => do
        let _ ← sysUnmap t.1 t.2
        return ()

/-- h_malloc.c:1357-1371, 1430-1444: register the mapping `p` or give it back. -/
def finishLarge (ro : Ro) (size guard : Nat) (stats : Bool) (p : Option Nat) : Prog (Option Nat) :=
  match p with
  | none => return none
  | some p => do
      if ← insertRegion ro p size guard stats then return some p
      else
        deallocatePages p size guard
        return none

/-- h_malloc.c:1344-1372 `allocate_large`. -/
def allocateLarge (ro : Ro) (size : Nat) : Prog (Option Nat) :=
  let size := getLargeSizeClass ro.g size
  if size = 0 then do
    setErrno ENOMEM
    return none
  else do
    let guard ← drawGuard ro size
    let p ← allocatePages size guard
    finishLarge ro size guard true p

/-- h_malloc.c:598-729 `allocate_small`. -/
def smallAlloc (ro : Ro) (arena reqSize : Nat) : Prog (Option Nat) := critical ro (.cls arena (getSizeInfo reqSize).cls none) fun ch σ e =>
  let cls := (getSizeInfo reqSize).cls
  if nClasses ro.g ≤ cls ∨ ro.g.nArena ≤ arena then .ub "size class index out of bounds"
  else
    match allocateSmall ro.g (ro.regionStart arena cls) cls reqSize ch (σ.sc arena cls) σ.vm e with
    | .ok (p, c, vm, e) =>
        .ok ({ σ with vm := vm, sc := fun a k => if a = arena ∧ k = cls then c else σ.sc a k }, e, p)
    | .fatal m => .fatal m
    | .segv => .segv
    | .ub w => .ub w
    | .hang => .hang

/-- h_malloc.c:1374-1376 `allocate`. -/
def allocate (ro : Ro) (arena size : Nat) : Prog (Option Nat) :=
  if size ≤ ro.g.maxSlab then smallAlloc ro arena size else allocateLarge ro size

/-- h_malloc.c:736-744 `slab_size_class`: arena and class. -/
def Ro.sizeClassOf (ro : Ro) (p : Nat) : Nat × Nat :=
  let offset := sub64 p ro.slabStart
  if 1 < ro.g.nArena then (offset / ro.arenaSize, offset % ro.arenaSize / ro.g.realClassRegionSize)
  else (0, offset / ro.g.realClassRegionSize)

/-- h_malloc.c:746-748 `slab_usable_size`. An address outside of the slab region can give an index past the table. -/
def Ro.slabUsableSize (ro : Ro) (p : Nat) : Nat := ro.g.classSize (ro.sizeClassOf p).2

/-- The test `p < get_slab_region_end() && p >= ro.slab_region_start`. -/
def Ro.inSlab (ro : Ro) (p : Nat) : Bool := decide (p < ro.slabEnd) && decide (ro.slabStart ≤ p)

/-- h_malloc.c:771-911 `deallocate_small`. -/
def smallFree (ro : Ro) (p : Nat) (expected : Option Nat) : Prog Unit :=
  critical ro (.cls (ro.sizeClassOf p).1 (ro.sizeClassOf p).2 (some p)) fun ch σ e =>
  let arena := (ro.sizeClassOf p).1
  let cls := (ro.sizeClassOf p).2
  if nClasses ro.g ≤ cls ∨ ro.g.nArena ≤ arena then .ub "size class index out of bounds"
  else
    match deallocateSmall ro.g (ro.regionStart arena cls) cls p expected ch (σ.sc arena cls) σ.vm e with
    | .ok (c, vm, e) =>
        .ok ({ σ with vm := vm, sc := fun a k => if a = arena ∧ k = cls then c else σ.sc a k }, e, ())
    | .fatal m => .fatal m
    | .segv => .segv
    | .ub w => .ub w
    | .hang => .hang

/-- h_malloc.c:1378-1399 `deallocate_large` (after initialisation, `enforce_init` does nothing). -/
def deallocateLarge (ro : Ro) (p : Nat) (expected : Option Nat) : Prog Unit := do
  unsealMeta
  let (size, guard) ← removeRegion ro p expected "invalid free"
  quarantineDeallocatePages ro p size guard

/-- h_malloc.c:1419-1444: `allocate_aligned` for alignments above the page size. -/
def allocateOverAligned (ro : Ro) (alignment size : Nat) : Prog (Option Nat) :=
  let size := getLargeSizeClass ro.g size
  if size = 0 then return none
  else do
    let guard ← drawGuard ro size
    let p ← allocatePagesAligned size alignment guard
    finishLarge ro size guard false p

/-- h_malloc.c:1401-1445 `allocate_aligned`: `.error` is a non-zero return value. -/
def allocateAligned (ro : Ro) (arena alignment size minAlignment : Nat) : Prog (Except Errno Nat) :=
  if (sub64 alignment 1 &&& alignment) ≠ 0 ∨ alignment < minAlignment then return .error EINVAL
  else if alignment ≤ PAGE then
    if size ≤ ro.g.maxSlab ∧ 16 < alignment then
      match getSizeInfoAlign ro.g size alignment with
      | none => die "invalid size for slabs"
      | some info => do
          match ← allocate ro arena info.size with
          | none => return .error ENOMEM
          | some p => return .ok p
    else do
      match ← allocate ro arena size with
      | none => return .error ENOMEM
      | some p => return .ok p
  else do
    match ← allocateOverAligned ro alignment size with
    | none => return .error ENOMEM
    | some p => return .ok p

/-! ### The API (h_malloc.c:1454-1865) -/

/-- h_malloc.c:1454-1461 `alloc_aligned`. -/
def allocAligned (ro : Ro) (arena alignment size minAlignment : Nat) : Prog (Except Errno Nat) := do
  unsealMeta
  let r ← allocateAligned ro arena alignment (adjustSizeForCanary ro.g size) minAlignment
  sealMeta
  return r

/-- h_malloc.c:1463-1471 `alloc_aligned_simple`. -/
def allocAlignedSimple (ro : Ro) (arena alignment size : Nat) : Prog (Option Nat) := do
  match ← allocAligned ro arena alignment size 1 with
  | .error e => do
      setErrno e
      return none
  | .ok p => return some p

/-- h_malloc.c:1473-1479 `alloc`. -/
def alloc (ro : Ro) (arena size : Nat) : Prog (Option Nat) := do
  unsealMeta
  let p ← allocate ro arena size
  sealMeta
  return p

/-- h_malloc.c:1481-1484 `h_malloc`. -/
def hMalloc (ro : Ro) (arena size : Nat) : Prog (Option Nat) := alloc ro arena (adjustSizeForCanary ro.g size)

/-- h_malloc.c:1486-1503 `h_calloc`. -/
def hCalloc (ro : Ro) (arena nmemb size : Nat) : Prog (Option Nat) :=
  if W64 ≤ nmemb * size then do
    setErrno ENOMEM
    return none
  else do
    let total := adjustSizeForCanary ro.g (nmemb * size)
    let p ← alloc ro arena total
    match p with
    | none => return none
    | some p =>
        if !ro.g.zeroOnFree && decide (total ≠ 0) && decide (total ≤ ro.g.maxSlab) then
          memZero p (total - ro.g.canarySize)
          return some p
        else return some p

/-- h_malloc.c:1635-1638: the number of bytes copied by `h_realloc`. -/
def copySize (g : Cfg) (size oldSize : Nat) : Nat :=
  let n := min size oldSize
  if 0 < n ∧ n ≤ g.maxSlab then n - g.canarySize else n

/-- h_malloc.c:1630-1646: allocate, copy, free. -/
def reallocCopy (ro : Ro) (arena old oldSize size : Nat) : Prog (Option Nat) := do
  match ← allocate ro arena size with
  | none =>
      sealMeta
      return none
  | some new =>
      memCopy new old (copySize ro.g size oldSize)
      if oldSize ≤ ro.g.maxSlab then smallFree ro old none else deallocateLarge ro old none
      sealMeta
      return some new

/-- h_malloc.c:1552-1571: shrink a large allocation in place. -/
def reallocShrink (ro : Ro) (old oldSize guard size : Nat) : Prog (Option Nat) := do
  if ← sysMapFixed (old + size) guard then
    sealMeta
    return none
  else
    quarantineDeallocatePages ro (old + size + guard) (oldSize - size) 0
    resizeRegion ro old oldSize size
    sealMeta
    return some old

/-- h_malloc.c:1601-1624: move a huge allocation with mremap. -/
def reallocMove (ro : Ro) (old oldSize guard size : Nat) : Prog (Option Nat) := do
  match ← allocateLarge ro size with
  | none =>
      sealMeta
      return none
  | some new =>
      let _ ← removeRegion ro old none "invalid realloc"
      if ← sysRemap old oldSize new size then
        memCopy new old (min size oldSize)
        deallocatePages old oldSize guard
      else
        let _ ← sysUnmap (old - guard) guard
        let _ ← sysUnmap (old + pageAlign oldSize) guard
        pure ()
      sealMeta
      return some new

/-- h_malloc.c:1530-1628: the old allocation is outside of the slab region. -/
def reallocLarge (ro : Ro) (arena old size : Nat) : Prog (Option Nat) := do
  unsealMeta
  let (oldSize, guard) ← findRegion ro old "invalid realloc"
  if oldSize = size then
    sealMeta
    return some old
  else if ro.g.maxSlab < size ∧ size < oldSize then reallocShrink ro old oldSize guard size
  else if ro.g.maxSlab < size ∧ MREMAP_MOVE_THRESHOLD ≤ min size oldSize then reallocMove ro old oldSize guard size
  else reallocCopy ro arena old oldSize size

/-- h_malloc.c:1519-1647: `h_realloc` once the new size is known. -/
def reallocSized (ro : Ro) (arena old size : Nat) : Prog (Option Nat) :=
  if ro.inSlab old then
    let oldSize := ro.slabUsableSize old
    if size ≤ ro.g.maxSlab ∧ (getSizeInfo size).size = oldSize then return some old
    else do
      unsealMeta
      reallocCopy ro arena old oldSize size
  else reallocLarge ro arena old size

/-- h_malloc.c:1505-1647 `h_realloc`; `old = 0` is NULL. -/
def hRealloc (ro : Ro) (arena old size : Nat) : Prog (Option Nat) :=
  let size := adjustSizeForCanary ro.g size
  if old = 0 then alloc ro arena size
  else if ro.g.maxSlab < size then
    if getLargeSizeClass ro.g size = 0 then do
      setErrno ENOMEM
      return none
    else reallocSized ro arena old (getLargeSizeClass ro.g size)
  else reallocSized ro arena old size

/-- h_malloc.c:1649-1651 `h_posix_memalign`: the error code or the value stored to `*memptr`. -/
def hPosixMemalign (ro : Ro) (arena alignment size : Nat) : Prog (Except Errno Nat) :=
  allocAligned ro arena alignment size 8

/-- h_malloc.c:1653-1655 `h_aligned_alloc`, `h_memalign`. -/
def hAlignedAlloc (ro : Ro) (arena alignment size : Nat) : Prog (Option Nat) := allocAlignedSimple ro arena alignment size

/-- h_malloc.c:1660-1662 `h_valloc`. -/
def hValloc (ro : Ro) (arena size : Nat) : Prog (Option Nat) := allocAlignedSimple ro arena PAGE size

/-- h_malloc.c:1664-1671 `h_pvalloc`. -/
def hPvalloc (ro : Ro) (arena size : Nat) : Prog (Option Nat) :=
  if pageAlign size = 0 then do
    setErrno ENOMEM
    return none
  else allocAlignedSimple ro arena PAGE (pageAlign size)

/-- h_malloc.c:1675-1694 `h_free`. -/
def hFree (ro : Ro) (p : Nat) : Prog Unit :=
  if p = 0 then return ()
  else if ro.inSlab p then do
    unsealMeta
    smallFree ro p none
    sealMeta
  else do
    let saved ← getErrno
    deallocateLarge ro p none
    setErrno saved
    sealMeta

/-- h_malloc.c:1700-1720 `h_free_sized`. -/
def hFreeSized (ro : Ro) (p expected : Nat) : Prog Unit :=
  if p = 0 then return ()
  else
    let expected := adjustSizeForCanary ro.g expected
    if ro.inSlab p then do
      unsealMeta
      smallFree ro p (some (getSizeInfo expected).size)
      sealMeta
    else do
      deallocateLarge ro p (some expected)
      sealMeta

/-- h_malloc.c:1722-1758 `memory_corruption_check_small`. -/
def smallCheck (ro : Ro) (p : Nat) : Prog Unit := critical ro (.cls (ro.sizeClassOf p).1 (ro.sizeClassOf p).2 none) fun ch σ e =>
  let arena := (ro.sizeClassOf p).1
  let cls := (ro.sizeClassOf p).2
  if nClasses ro.g ≤ cls ∨ ro.g.nArena ≤ arena then .ub "size class index out of bounds"
  else
    match memoryCorruptionCheckSmall ro.g (tagging ro.g ch) (ro.regionStart arena cls) cls p (σ.sc arena cls) σ.vm with
    | .ok _ => .ok (σ, e, ())
    | .fatal m => .fatal m
    | .segv => .segv
    | .ub w => .ub w
    | .hang => .hang

/-- h_malloc.c:1760-1790 `h_malloc_usable_size`. -/
def hUsableSize (ro : Ro) (p : Nat) : Prog Nat :=
  if p = 0 then return 0
  else if ro.inSlab p then do
    unsealMeta
    smallCheck ro p
    sealMeta
    let size := ro.slabUsableSize p
    return if size = 0 then 0 else size - ro.g.canarySize
  else do
    unsealMeta
    let (size, _) ← findRegion ro p "invalid malloc_usable_size"
    sealMeta
    return size

/-- h_malloc.c:1808-1824: the offset of `p` in its slot. For the zero byte class the slab size is computed from size 0,
so the slab is taken to be the start of the region; the divisor is 16. -/
def objectOffset (g : Cfg) (base cls p : Nat) (c : SC) : Res Nat := do
  let m ← getMetadata g base cls p c
  let slab := slabAddr base (getSlabSize (g.slots cls) (g.classSize cls)) m
  let slot := libdivideU32Do (sub64 p slab % 2 ^ 32) (libdivideU32Gen (g.slotSize cls))
  if 256 ≤ slot then .ub "bitmap index out of bounds"
  else if !(c.slabs m).bitmap.get slot then .fatal "invalid malloc_object_size"
  else if g.slabQuarantine && (c.slabs m).qbitmap.get slot then .fatal "invalid malloc_object_size (quarantine)"
  else .ok (sub64 p (slotPointer (g.classSize cls) slab slot))

/-- h_malloc.c:1801-1826. -/
def smallOffset (ro : Ro) (p : Nat) : Prog Nat := critical ro (.cls (ro.sizeClassOf p).1 (ro.sizeClassOf p).2 none) fun _ σ e =>
  let arena := (ro.sizeClassOf p).1
  let cls := (ro.sizeClassOf p).2
  if nClasses ro.g ≤ cls ∨ ro.g.nArena ≤ arena then .ub "size class index out of bounds"
  else
    match objectOffset ro.g (ro.regionStart arena cls) cls p (σ.sc arena cls) with
    | .ok n => .ok (σ, e, n)
    | .fatal m => .fatal m
    | .segv => .segv
    | .ub w => .ub w
    | .hang => .hang

/-- h_malloc.c:1839-1843. -/
def largeObjectSize (ro : Ro) (p : Nat) : Prog Nat := critical ro (.regions false false) fun _ σ e =>
  match lookupRegion σ.rt p with
  | .ok (some (_, r)) => .ok (σ, e, r.size)
  | .ok none => .ok (σ, e, W64 - 1)
  | .fatal m => .fatal m
  | .segv => .segv
  | .ub w => .ub w
  | .hang => .hang

/-- h_malloc.c:1792-1847 `h_malloc_object_size`. -/
def hObjectSize (ro : Ro) (p : Nat) : Prog Nat :=
  if p = 0 then return 0
  else if ro.inSlab p then do
    unsealMeta
    let offset ← smallOffset ro p
    sealMeta
    let size := ro.slabUsableSize p
    return if size = 0 then 0 else sub64 (sub64 size ro.g.canarySize) offset
  else do
    unsealMeta
    let size ← largeObjectSize ro p
    sealMeta
    return size

/-- h_malloc.c:1849-1865 `h_malloc_object_size_fast`. -/
def hObjectSizeFast (ro : Ro) (p : Nat) : Prog Nat :=
  if p = 0 then return 0
  else if ro.inSlab p then
    let size := ro.slabUsableSize p
    return if size = 0 then 0 else size - ro.g.canarySize
  else return W64 - 1

/-- h_malloc.c:1889-1940: one iteration of the loops of `h_malloc_trim`. -/
def smallTrim (ro : Ro) (arena cls : Nat) : Prog Bool := critical ro (.cls arena cls none) fun ch σ e =>
  match trimClass ro.g (ro.regionStart arena cls) cls ch (σ.sc arena cls) σ.vm e with
  | .ok (t, c, vm, e) =>
      .ok ({ σ with vm := vm, sc := fun a k => if a = arena ∧ k = cls then c else σ.sc a k }, e, t)
  | .fatal m => .fatal m
  | .segv => .segv
  | .ub w => .ub w
  | .hang => .hang

/-- h_malloc.c:1888-1941: the inner loop, over `n` classes from `cls` on. -/
def trimClasses (ro : Ro) (arena : Nat) : Nat → Nat → Bool → Prog Bool
  | 0, _, t => return t
  | n + 1, cls, t => do
      let t' ← smallTrim ro arena cls
      trimClasses ro arena n (cls + 1) (t || t')

/-- h_malloc.c:1886-1942: the outer loop, over `n` arenas from `arena` on. -/
def trimArenas (ro : Ro) : Nat → Nat → Bool → Prog Bool
  | 0, _, t => return t
  | n + 1, arena, t => do
      let t ← trimClasses ro arena (nClasses ro.g - 1) 1 t
      trimArenas ro n (arena + 1) t

/-- h_malloc.c:1877-1947 `h_malloc_trim`. -/
def hTrim (ro : Ro) : Prog Bool := do
  unsealMeta
  let t ← trimArenas ro ro.g.nArena 0 false
  sealMeta
  return t

/-- `struct mallinfo2`, the fields set by h_malloc.c:1958-1996. -/
structure MallInfo where
  hblkhd : Nat
  uordblks : Nat
  fordblks : Nat
  usmblks : Nat

/-- h_malloc.c:1972-1976. -/
def readLargeStats (ro : Ro) : Prog Nat := critical ro (.regions false false) fun _ σ e => .ok (σ, e, σ.largeAllocated)

/-- h_malloc.c:1980-1985. -/
def readClassStats (ro : Ro) (arena cls : Nat) : Prog (Nat × Nat) := critical ro (.cls arena cls none) fun _ σ e =>
  .ok (σ, e, ((σ.sc arena cls).slabAllocated, (σ.sc arena cls).allocated))

/-- h_malloc.c:1979-1986: the inner loop. -/
def sumClasses (ro : Ro) (arena : Nat) : Nat → Nat → Nat × Nat → Prog (Nat × Nat)
  | 0, _, t => return t
  | n + 1, cls, t => do
      let r ← readClassStats ro arena cls
      sumClasses ro arena n (cls + 1) (add64 t.1 r.1, add64 t.2 r.2)

/-- h_malloc.c:1978-1987: the outer loop. -/
def sumArenas (ro : Ro) : Nat → Nat → Nat × Nat → Prog (Nat × Nat)
  | 0, _, t => return t
  | n + 1, arena, t => do
      let t ← sumClasses ro arena (nClasses ro.g) 0 t
      sumArenas ro n (arena + 1) t

/-- h_malloc.c:1958-1996 `h_mallinfo2`. -/
def hMallinfo (ro : Ro) : Prog MallInfo :=
  if ro.g.stats then do
    unsealMeta
    let large ← readLargeStats ro
    let t ← sumArenas ro ro.g.nArena 0 (large, large)
    sealMeta
    return ⟨t.1, t.2, sub64 t.1 t.2, t.1⟩
  else return ⟨0, 0, 0, 0⟩

end HM
