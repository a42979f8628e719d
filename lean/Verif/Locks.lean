import Mathlib.Data.Nat.Basic
/-
The locks, the initialisation and the assignment of arenas of h_malloc.c, one step per lock operation or access to a shared
variable. The data that the locks protect is not part of this model: a section that works on it is one step `touch`, and
a branch that depends on data or on the kernel is a `choose`, which may go either way. The model of the data, in which
every section is one atomic step, is in Machine.lean and Conc.lean. Memory is sequentially consistent here: `slab_region_end`
is read and written with acquire and release (h_malloc.c:87-89, 1286), all else that threads share is protected by locks.
-/
namespace HM.L

/-- h_malloc.c:1195 `init_lock`; :928 the lock of the region allocator; :248 the locks of the size classes of the arenas. -/
inductive Lock where
  | init
  | region
  | cls (a c : Nat)
  deriving DecidableEq

/-- What a thread still has to do. -/
inductive Code where
  /-- back in the application -/
  | done
  /-- util.c:33-44 `fatal_error`: ends the process -/
  | fatal
  /-- something that this model does not describe (shown not to be reachable) -/
  | bad
  /-- mutex.h:20-22 `mutex_lock` -/
  | lock (l : Lock) (k : Code)
  /-- mutex.h:24-26 `mutex_unlock` -/
  | unlock (l : Lock) (k : Code)
  /-- mutex.h:14-18 `mutex_init` -/
  | newLock (l : Lock) (k : Code)
  /-- any access to the data that the lock protects -/
  | touch (l : Lock) (k : Code)
  /-- random.c:27-34 `random_state_init`, :36-43 `random_state_init_from_random_state`: a new seed for the random state that the lock protects -/
  | seed (l : Lock) (k : Code)
  /-- h_malloc.c:1185-1187 `is_init`, and the reads of `slab_region_end` by `get_slab_region_end` -/
  | isInit (k : Bool → Code)
  /-- h_malloc.c:1286: the store to `slab_region_end` -/
  | publish (k : Code)
  /-- h_malloc.c:1302: the read of `thread_arena` -/
  | getArena (k : Nat → Code)
  /-- h_malloc.c:1307: `thread_arena_counter++`, atomic -/
  | nextArena (k : Nat → Code)
  /-- h_malloc.c:1307: the write of `thread_arena` -/
  | setArena (a : Nat) (k : Code)
  /-- an allocation from this arena begins (h_malloc.c:598 `allocate_small`, its argument `arena`) -/
  | uses (a : Nat) (k : Code)
  /-- h_malloc.c:1296 `pthread_atfork(full_lock, full_unlock, post_fork_child)` -/
  | atfork (k : Code)
  /-- libc's `fork`: are the handlers registered? -/
  | handlers (k : Bool → Code)
  /-- the system call `fork`: the parent and the child go on separately -/
  | fork (parent child : Code)
  /-- a branch that depends on data -/
  | choose (k : Nat → Code)

/-- The numbers of arenas and size classes (`N_ARENA`, `N_SIZE_CLASSES`). -/
structure Dim where
  na : Nat
  nc : Nat

/-- All locks of size classes, in the order of the two loops of h_malloc.c:1151-1155, 1162-1166, 1175-1181 and 1260-1282. -/
def Dim.classLocks (d : Dim) : List Lock := (List.range d.na).flatMap fun a => (List.range d.nc).map fun c => .cls a c

/-- A loop over locks. -/
def forLocks (f : Lock → Code → Code) (ls : List Lock) (k : Code) : Code := ls.foldr f k

/-- h_malloc.c:1148-1157 `full_lock`. -/
def fullLock (d : Dim) (k : Code) : Code := .lock .region (forLocks .lock d.classLocks k)

/-- h_malloc.c:1159-1168 `full_unlock`. -/
def fullUnlock (d : Dim) (k : Code) : Code := .unlock .region (forLocks .unlock d.classLocks k)

/-- h_malloc.c:1170-1183 `post_fork_child`. -/
def postForkChild (d : Dim) (k : Code) : Code :=
  .newLock .region (.seed .region (forLocks (fun l k => .newLock l (.seed l k)) d.classLocks k))

/-- A section: lock, work on the data, unlock (possibly aborting in between). -/
def crit (l : Lock) (k : Code) : Code := .lock l (.touch l (.choose fun n => if n = 0 then .fatal else .unlock l k))

/-- h_malloc.c:598-729 `allocate_small`, for the class `c`. All its paths unlock before they return. -/
def allocateSmall (a c : Nat) (k : Code) : Code := .uses a (crit (.cls a c) k)

/-- h_malloc.c:1344-1372 `allocate_large`; the same for the second part of `allocate_aligned` (:1418-1445). Fails if the size
overflows or the kernel refuses. -/
def allocateLarge (k : Code) : Code :=
  .choose fun n => if n = 0 then k else crit .region (.choose fun n => if n = 0 then k else crit .region k)

/-- h_malloc.c:1374-1376 `allocate`, 1401-1445 `allocate_aligned`: small or large, depending on the size. -/
def allocate (d : Dim) (a : Nat) (k : Code) : Code := .choose fun c => if c < d.nc then allocateSmall a c k else allocateLarge k

/-- h_malloc.c:1197-1299 `init_slow_path`. `atf` is what `pthread_atfork` does before it registers the handlers. -/
def initSlowPath (d : Dim) (atf : Code → Code) (k : Code) : Code :=
  .lock .init (.isInit fun b =>
    if b then .unlock .init k
    else .choose fun n => if n = 0 then .fatal
      else .newLock .region (.seed .region (forLocks (fun l k => .newLock l (.seed l k)) d.classLocks
        (.publish (.choose fun n => if n = 0 then .fatal
          else .unlock .init (atf (.choose fun n => if n = 0 then .fatal else .atfork k)))))))

/-- h_malloc.c:1301-1313 `init`, which returns the arena. -/
def initWith (d : Dim) (slow : Code → Code) (k : Nat → Code) : Code :=
  if d.na > 1 then
    .getArena fun a => if a < d.na then k a
      else .nextArena fun n => .setArena (n % d.na) (.isInit fun b => if b then k (n % d.na) else slow (k (n % d.na)))
  else .isInit fun b => if b then k 0 else slow (k 0)

/-- libc's `pthread_atfork` may allocate (comment of h_malloc.c:1295). The `init` of this allocation never needs to
initialise: that would be `bad`. -/
def pthreadAtfork (d : Dim) (k : Code) : Code := .choose fun n => if n = 0 then k else initWith d (fun _ => .bad) fun a => allocate d a k

/-- h_malloc.c:1301-1313 `init`. -/
def init (d : Dim) (k : Nat → Code) : Code := initWith d (initSlowPath d (pthreadAtfork d)) k

/-- h_malloc.c:771-911 `deallocate_small`, 1722-1758 `memory_corruption_check_small`, 1798-1830 of `h_malloc_object_size`: a section of the class of the
pointer. The pointer lies in the slab region, so that its arena and class are in range (`slab_size_class`, :736-744). -/
def smallSection (d : Dim) (k : Code) : Code :=
  .choose fun a => .choose fun c => if a < d.na ∧ c < d.nc then crit (.cls a c) k else .fatal

/-- h_malloc.c:973-1015 `regions_quarantine_deallocate_pages`. -/
def quarantineDeallocate (k : Code) : Code := .choose fun n => if n = 0 then k else crit .region k

/-- h_malloc.c:1189-1193 `enforce_init`. -/
def enforceInit (k : Code) : Code := .isInit fun b => if b then k else .fatal

/-- h_malloc.c:1378-1399 `deallocate_large`. -/
def deallocateLarge (k : Code) : Code := enforceInit (crit .region (quarantineDeallocate k))

/-- The test whether a pointer lies in the slab region (h_malloc.c:1523, 1682, 1709, 1767, 1798): not while `slab_region_end` is NULL. -/
def inSlabRegion (small large : Code) : Code := .isInit fun b => if b then .choose fun n => if n = 0 then small else large else large

/-- The calls of the application. -/
inductive LCall where
  /-- `malloc`, `calloc`, `posix_memalign`, `aligned_alloc`, `memalign`, `valloc`, `pvalloc` -/
  | alloc
  | realloc
  /-- `free`, `free_sized` -/
  | free
  | usableSize
  | objectSize
  /-- `malloc_trim`, `mallopt(M_PURGE)` -/
  | trim
  | mallinfo
  | mallocInfo
  | arenaInfo
  | binInfo
  | disable
  | enable
  | fork

def LCall.isEnable : LCall → Bool
  | .enable => true
  | _ => false

def LCall.isDisable : LCall → Bool
  | .disable => true
  | _ => false

/-- h_malloc.c:1505-1647 `h_realloc`. -/
def reallocCode (d : Dim) : Code :=
  let move (small : Bool) : Code := init d fun a => allocate d a (.choose fun n => if n = 0 then .done
    else if small then smallSection d .done else deallocateLarge .done)
  .choose fun n =>
    if n = 0 then init d fun a => allocate d a .done
    else if n = 1 then .done
    else inSlabRegion
      (.choose fun n => if n = 0 then .done else move true)
      (enforceInit (crit .region (.choose fun n =>
        if n = 0 then .done
        else if n = 1 then quarantineDeallocate (crit .region .done)
        else if n = 2 then allocateLarge (.choose fun n => if n = 0 then .done else crit .region .done)
        else .choose fun n => move (n = 0))))

/-- What a call executes: h_malloc.c:1454-1503 and 1649-1671 (allocation), 1675-1720 (`free`, `free_sized`), 1760-1790 (`malloc_usable_size`), 1792-1847
(`malloc_object_size`), 1877-1947 (`malloc_trim`), 1954-1996 (`mallinfo`), 2000-2056 (`malloc_info`), 2075-2106 and 2115-2139 (Android's statistics),
2147-2155 (`malloc_disable`, `malloc_enable`). `fork` is libc's, which calls the registered handlers. -/
def LCall.code (d : Dim) : LCall → Code
  | .alloc => .choose fun n => if n = 0 then .done else init d fun a => allocate d a .done
  | .realloc => reallocCode d
  | .free => .choose fun n => if n = 0 then .done else inSlabRegion (smallSection d .done) (deallocateLarge .done)
  | .usableSize => .choose fun n => if n = 0 then .done else inSlabRegion (smallSection d .done) (enforceInit (crit .region .done))
  | .objectSize => .choose fun n => if n = 0 then .done
      else .isInit fun b => if b then .choose fun n => if n = 0 then smallSection d .done else crit .region .done else .done
  | .trim => .isInit fun b => if b then forLocks (fun l k => match l with | .cls _ 0 => k | _ => crit l k) d.classLocks .done else .done
  | .mallinfo => .isInit fun b => if b then crit .region (forLocks crit d.classLocks .done) else .done
  | .mallocInfo => .isInit fun b => if b then forLocks crit d.classLocks (crit .region .done) else .done
  | .arenaInfo => .isInit fun b => if b then .choose fun n =>
      if n < d.na then forLocks (fun l k => match l with | .cls a _ => if a = n then crit l k else k | _ => k) d.classLocks .done
      else if n = d.na then crit .region .done else .done
    else .done
  | .binInfo => .isInit fun b => if b then .choose fun a => .choose fun c => if a < d.na ∧ c < d.nc then crit (.cls a c) .done else .done else .done
  | .disable => init d fun _ => fullLock d .done
  | .enable => enforceInit (fullUnlock d .done)
  | .fork => .handlers fun b => if b then fullLock d (.fork (fullUnlock d .done) (postForkChild d .done)) else .fork .done .done

/-- The state of a mutex: free, held by a thread, or held by a thread that the process does not have (any more): one that
was left behind by `fork`. -/
inductive Own where
  | free
  | held (t : Nat)
  | lost
  deriving DecidableEq

/-- A process. `seeded l` is the process whose operating system call provided the seed of the random state that `l` protects;
`process` is the process itself. `dis t`: the thread is between `malloc_disable` and `malloc_enable`. `solo = some t`: the process was created by
`fork` in thread `t`; there are no other threads until `fork` has returned. -/
structure LSys where
  owner : Lock → Own
  inited : Bool
  registered : Bool
  counter : Nat
  arena : Nat → Nat
  pc : Nat → Code
  dis : Nat → Bool
  dead : Bool
  process : Nat
  seeded : Lock → Option Nat
  solo : Option Nat

def upd {α : Type} [DecidableEq α] {β : Type} (f : α → β) (x : α) (v : β) : α → β := fun y => if y = x then v else f y

/-- What a step does, as far as it can be observed. -/
inductive Op where
  | start (c : LCall)
  | lock (l : Lock)
  | unlock (l : Lock)
  | touch (l : Lock)
  | publish
  | uses (a : Nat)
  | other

/-- One step of thread `t`; `n` decides the branches. `none`: the thread waits for a lock, is in the application, or the process has ended. -/
def LSys.step (s : LSys) (t n : Nat) : Option (LSys × Op) :=
  if s.dead then none
  else match s.pc t with
  | .done => none
  | .bad => none
  | .fatal => some ({ s with dead := true }, .other)
  | .lock l k => if s.owner l = .free then some ({ s with owner := upd s.owner l (.held t), pc := upd s.pc t k }, .lock l) else none
  | .unlock l k => some ({ s with owner := upd s.owner l .free, pc := upd s.pc t k }, .unlock l)
  | .newLock l k => some ({ s with owner := upd s.owner l .free, pc := upd s.pc t k }, .other)
  | .touch l k => some ({ s with pc := upd s.pc t k }, .touch l)
  | .seed l k => some ({ s with seeded := upd s.seeded l (some s.process), pc := upd s.pc t k }, .other)
  | .isInit k => some ({ s with pc := upd s.pc t (k s.inited) }, .other)
  | .publish k => some ({ s with inited := true, pc := upd s.pc t k }, .publish)
  | .getArena k => some ({ s with pc := upd s.pc t (k (s.arena t)) }, .other)
  | .nextArena k => some ({ s with counter := (s.counter + 1) % 2 ^ 32, pc := upd s.pc t (k s.counter) }, .other)
  | .setArena a k => some ({ s with arena := upd s.arena t a, pc := upd s.pc t k }, .other)
  | .uses a k => some ({ s with pc := upd s.pc t k }, .uses a)
  | .atfork k => some ({ s with registered := true, pc := upd s.pc t k }, .other)
  | .handlers k => some ({ s with pc := upd s.pc t (k s.registered) }, .other)
  | .fork p _ => some ({ s with pc := upd s.pc t p }, .other)
  | .choose k => some ({ s with pc := upd s.pc t (k n) }, .other)

/-- `fork` has returned, if the process was created by it. -/
def LSys.forked (s : LSys) : Bool :=
  match s.solo with
  | none => true
  | some t => match s.pc t with | .done => true | _ => false

/-- A thread in the application makes a call. A thread that has disabled the allocator may only enable it again, and only such a
thread enables it (using the allocator in between is an error of the application: it would wait for itself). -/
def LSys.start (d : Dim) (s : LSys) (t : Nat) (c : LCall) : Option (LSys × Op) :=
  match s.pc t with
  | .done => if s.dead || !s.forked then none else
      if s.dis t = c.isEnable then some ({ s with pc := upd s.pc t (c.code d), dis := upd s.dis t c.isDisable, solo := none }, .start c)
      else none
  | _ => none

/-- The process that `fork` creates when `t` calls it, as it starts to run: it has the thread `t` alone, a copy of the memory, and therefore the locks as
they were; all other threads are new ones, created later. `n` is its process number. -/
def LSys.forkChild (d : Dim) (s : LSys) (t n : Nat) (c : Code) : LSys :=
  { s with
    owner := fun l => match s.owner l with | .free => .free | .held u => if u = t then .held t else .lost | .lost => .lost
    arena := fun u => if u = t then s.arena t else d.na
    pc := fun u => if u = t then c else .done
    dis := fun u => if u = t then s.dis t else false
    process := n
    solo := some t }

/-- A process that has just been started by `exec`. -/
def LSys.fresh (d : Dim) (n : Nat) : LSys :=
  { owner := fun _ => .free, inited := false, registered := false, counter := 0, arena := fun _ => d.na, pc := fun _ => .done, dis := fun _ => false,
    dead := false, process := n, seeded := fun _ => none, solo := none }

/-- One step of any thread of a process. -/
inductive LStep (d : Dim) : LSys → Nat → Op → LSys → Prop where
  | run {s s' : LSys} {t n : Nat} {o : Op} (h : s.step t n = some (s', o)) : LStep d s t o s'
  | start {s s' : LSys} {t : Nat} {c : LCall} {o : Op} (h : s.start d t c = some (s', o)) : LStep d s t o s'

/-- The states that a process reaches, with what its threads did. A process is created by `exec`, or by `fork` in a thread of another process, called
when the handlers were registered there (so that the thread has executed `full_lock` and the child continues with `post_fork_child`); the history is then that of the thread that called `fork`. -/
inductive LReach (d : Dim) : List (Nat × Op) → LSys → Prop where
  | exec (n : Nat) : LReach d [] (LSys.fresh d n)
  | step {h : List (Nat × Op)} {s s' : LSys} {t : Nat} {o : Op} (r : LReach d h s) (hs : LStep d s t o s') : LReach d ((t, o) :: h) s'
  | fork {h : List (Nat × Op)} {s : LSys} {t : Nat} (n : Nat) (r : LReach d h s) (hp : s.pc t = .fork (fullUnlock d .done) (postForkChild d .done))
      (hn : n ≠ s.process) (hd : s.dead = false) : LReach d (h.filter fun e => e.1 = t) (s.forkChild d t n (postForkChild d .done))

end HM.L
