import Verif.Seq
/-
Executions from the start of the process: the allocator is initialised by the first call that allocates. Until then
`ro.slab_region_end` is NULL (h_malloc.c:1185-1187), so no pointer is taken for one into the slab region.
-/
namespace HM

/-- h_malloc.c:1301-1313 `init` in a process that is not initialised, followed by the rest of the call `c`. The choice of
the arena of the thread is part of `arena`. -/
def initThen (g : Cfg) (l : Layout) (arena : Nat) (c : Call) : Prog (Option Ro × Ret) := do
  let ro ← initSlowPath g l
  let r ← c.prog ro arena
  return (some ro, r)

/-- A return before `init` is reached. -/
def notInit (r : Ret) : Prog (Option Ro × Ret) := return (none, r)

/-- `enforce_init` (h_malloc.c:1189-1193) in a process that is not initialised. -/
def enforceInit : Prog (Option Ro × Ret) := die "invalid uninitialized allocator usage"

/-- A call in a process that is not initialised; the result tells whether it is afterwards.
`alloc` (h_malloc.c:1473-1479) and `alloc_aligned` (1454-1461) begin with `init`; `h_calloc` (1488-1491), `h_realloc`
(1511-1517) and `h_pvalloc` (1665-1669) reject sizes that are too large before; `deallocate_large` (1379),
`h_realloc` (1530) and `h_malloc_usable_size` (1777) begin with `enforce_init`; for the object sizes see 1832-1834 and
1860-1862, for `h_malloc_trim` 1878-1880, for `h_mallinfo2` 1968-1970. -/
def Call.bootProg (g : Cfg) (l : Layout) (arena : Nat) (c : Call) : Prog (Option Ro × Ret) :=
  match c with
  | .malloc _ | .posixMemalign _ _ | .alignedAlloc _ _ | .valloc _ => initThen g l arena c
  | .calloc n k =>
      if W64 ≤ n * k then do
        setErrno ENOMEM
        notInit (.ptr 0)
      else initThen g l arena c
  | .pvalloc n =>
      if pageAlign n = 0 then do
        setErrno ENOMEM
        notInit (.ptr 0)
      else initThen g l arena c
  | .realloc p n =>
      if p = 0 then initThen g l arena c
      else if g.maxSlab < adjustSizeForCanary g n ∧ getLargeSizeClass g (adjustSizeForCanary g n) = 0 then do
        setErrno ENOMEM
        notInit (.ptr 0)
      else enforceInit
  | .free p => if p = 0 then notInit .unit else enforceInit
  | .freeSized p _ => if p = 0 then notInit .unit else enforceInit
  | .usableSize p => if p = 0 then notInit (.num 0) else enforceInit
  | .objectSize p => if p = 0 then notInit (.num 0) else notInit (.num (W64 - 1))
  | .objectSizeFast _ => notInit (.num 0)
  | .trim => notInit (.bool false)
  | .mallinfo => notInit (.info ⟨0, 0, 0, 0⟩)

/-- The system from the start of the process: `ro` is none until the allocator is initialised. -/
structure Boot where
  ro : Option Ro
  s : Sys

/-- What the call `c` of thread `t` does. -/
def Boot.call (g : Cfg) (l : Layout) (ar : Nat → Nat) (b : Boot) (t : Nat) (c : Call) (chs : Nat → Choice) : Res (Boot × Ret) :=
  match b.ro with
  | some ro =>
      match b.s.call ro ar t c chs with
      | .ok (s, r) => .ok (⟨some ro, s⟩, r)
      | .fatal m => .fatal m
      | .segv => .segv
      | .ub w => .ub w
      | .hang => .hang
  | none =>
      match (c.bootProg g l (ar t)).run chs b.s.σ (b.s.tl t) with
      | .ok (σ, tl, ro, r) => .ok (⟨ro, ⟨σ, fun u => if u = t then tl else b.s.tl u⟩⟩, r)
      | .fatal m => .fatal m
      | .segv => .segv
      | .ub w => .ub w
      | .hang => .hang

/-- One step of the system. -/
def Boot.step (g : Cfg) (l : Layout) (ar : Nat → Nat) (b : Boot) : Act → Res (Boot × Ev)
  | .call t c chs =>
      match b.call g l ar t c chs with
      | .ok (b, r) => .ok (b, .call t c r)
      | .fatal m => .fatal m
      | .segv => .segv
      | .ub w => .ub w
      | .hang => .hang
  | .store x v => .ok (⟨b.ro, { b.s with σ := { b.s.σ with vm := b.s.σ.vm.appStore x v } }⟩, .store x v)
  | .errno t e => .ok (⟨b.ro, { b.s with tl := fun u => if u = t then { b.s.tl u with errno := e } else b.s.tl u }⟩, .errno t e)

/-- The states reachable from the start of the process, by any application, with the history that leads there. At any time, also before the allocator is
initialised, others map pages that are not in use, and change and release the pages that they have mapped. (The memory of pages that are released before the
initialisation is zero in the model; nobody can read it.) -/
inductive BReach (g : Cfg) (l : Layout) (ar : Nat → Nat) (calm : Bool) (D : List Ev → Boot → Act → Prop) : List Ev → Boot → Prop where
  | start {tl : Nat → Tl} (htl : ∀ t, (tl t).unsealed = false) : BReach g l ar calm D [] ⟨none, ⟨St.zero, tl⟩⟩
  | step {h : List Ev} {b b' : Boot} {a : Act} {e : Ev} (hr : BReach g l ar calm D h b) (ha : a.Ok calm) (hd : D h b a)
      (hs : b.step g l ar a = .ok (b', e)) : BReach g l ar calm D (e :: h) b'
  | other {h : List Ev} {b : Boot} (hr : BReach g l ar calm D h b) (pg : Nat) (pr : Prot) (data : Nat → BitVec 8) (hp : Foreign h b.s.σ.vm pg)
      (hz : b.ro = none → pr = .unmapped → ∀ x, data x = 0#8) :
      BReach g l ar calm D (.foreign pg (pr != .unmapped) :: h) ⟨b.ro, { b.s with σ := { b.s.σ with vm := b.s.σ.vm.foreign pg pr data } }⟩

end HM
