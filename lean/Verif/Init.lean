import Verif.Machine
/-
Initialisation (h_malloc.c:1197-1299 `init_slow_path`).
-/
namespace HM

/-- Sizes and offsets fixed by the C compiler; the results hold for any values. `rng` is `sizeof(struct random_state)`,
`state` is `sizeof(struct allocator_state)`, `tabOff` the offset of `regions_a` in it (h_malloc.c:962-971), which has room
for the initial 128 entries. -/
structure Layout where
  rng : Nat
  state : Nat
  tabOff : Nat
  fits : tabOff + 128 * 24 ≤ state

/-- pages.c:12-29 `allocate_pages` with `unprotect` false (h_malloc.c:1224). -/
def reservePages (usableSize guard : Nat) : Prog (Option Nat) :=
  match addGuards usableSize guard with
  | none => do
      setErrno ENOMEM
      return none
  | some realSize => do
      match ← sysMap realSize with
      | none => return none
      | some real => return some (real + guard)

/-- h_malloc.c:1220-1221: the size of the guards around the allocator state. The random number is any number below the
bound (see RandomUniform.lean). -/
def drawMetaGuard (g : Cfg) : Prog Nat :=
  .one fun ch σ tl => .ok (σ, tl, (ch.guard % (g.realClassRegionSize / PAGE) + 1) * PAGE)

/-- h_malloc.c:1268-1269: the gap before the region of class `cls` of arena `arena`; `draw` is a random number. -/
def gapOf (g : Cfg) (draw : Nat) : Nat :=
  (draw % ((g.realClassRegionSize - g.classRegionSize) / PAGE - 1) + 1) * PAGE

/-- h_malloc.c:1260-1282: the loop over arenas and classes. Only the gaps are kept: locks and random states are modelled
separately, the reciprocals are recomputed when used, labels are not modelled. -/
def drawGaps (g : Cfg) : Prog (Nat → Nat → Nat) :=
  .one fun ch σ tl => .ok (σ, tl, fun a c => gapOf g (ch.u16 (a * nClasses g + c)))

/-- h_malloc.c:1197-1299 `init_slow_path`, run by the one thread that holds `init_lock` and finds the allocator not
initialised. `memory_protect_ro(&ro)` (1297) and `pthread_atfork` (1304) act on memory that is not modelled and are
omitted; if they fail the process is aborted. -/
def initSlowPath (g : Cfg) (l : Layout) : Prog Ro := do
  match ← allocatePages l.rng PAGE with
  | none => die "failed to allocate init rng"
  | some rng =>
    let guard ← drawMetaGuard g
    match ← reservePages l.state guard with
    | none => die "failed to reserve allocator state"
    | some state =>
      if ← sysProtect state l.tabOff then die "failed to unprotect allocator state"
      else if ← sysProtect (state + l.tabOff) (128 * 24) then die "failed to unprotect memory for regions table"
      else
        match ← sysMap (g.realClassRegionSize * nClasses g * g.nArena) with
        | none => die "failed to allocate slab region"
        | some slab =>
          let gap ← drawGaps g
          deallocatePages rng l.rng PAGE
          return ⟨g, slab, gap⟩

/-- The state before initialisation: nothing is mapped, static data and fresh pages are zero. The region table is given
its initial size by h_malloc.c:1242-1243. -/
def St.zero : St where
  vm := ⟨fun _ => .unmapped, fun _ => 0#8⟩
  sc := fun _ _ => SC.init
  rt := RegTable.init
  qr := fun _ => (0, 0)
  qq := fun _ => (0, 0)
  qi := 0
  largeAllocated := 0

/-- `ro` and `σ` are the result of a successful initialisation. -/
def Initialised (g : Cfg) (ro : Ro) (σ : St) : Prop :=
  ∃ l chs tl tl', (initSlowPath g l).run chs St.zero tl = .ok (σ, tl', ro)

end HM
