import Verif.History
import Verif.Init
/-
Executions in which API calls of any number of threads follow one another, each running to completion before the next one
begins, interleaved with stores by the application.
-/
namespace HM

/-- A result pointer; none is NULL. -/
def retPtr (r : Option Nat) : Ret := .ptr (r.getD 0)

/-- The function a call runs, in a thread that uses arena `arena`. -/
def Call.prog (ro : Ro) (arena : Nat) : Call → Prog Ret
  | .malloc n => do return retPtr (← hMalloc ro arena n)
  | .calloc n k => do return retPtr (← hCalloc ro arena n k)
  | .realloc p n => do return retPtr (← hRealloc ro arena p n)
  | .posixMemalign al n => do return .memalign (← hPosixMemalign ro arena al n)
  | .alignedAlloc al n => do return retPtr (← hAlignedAlloc ro arena al n)
  | .valloc n => do return retPtr (← hValloc ro arena n)
  | .pvalloc n => do return retPtr (← hPvalloc ro arena n)
  | .free p => do
      hFree ro p
      return .unit
  | .freeSized p n => do
      hFreeSized ro p n
      return .unit
  | .usableSize p => do return .num (← hUsableSize ro p)
  | .objectSize p => do return .num (← hObjectSize ro p)
  | .objectSizeFast p => do return .num (← hObjectSizeFast ro p)
  | .trim => do return .bool (← hTrim ro)
  | .mallinfo => do return .info (← hMallinfo ro)

/-- The whole system: the shared state and the thread-local state of every thread. -/
structure Sys where
  σ : St
  tl : Nat → Tl

/-- What may happen next: thread `t` makes a call, with the environment's choices `chs`; the application stores a byte
somewhere; thread `t` sets its errno. -/
inductive Act where
  | call (t : Nat) (c : Call) (chs : Nat → Choice)
  | store (x : Nat) (v : BitVec 8)
  | errno (t : Nat) (e : Errno)

/-- What the call `c` of thread `t` does. -/
def Sys.call (ro : Ro) (ar : Nat → Nat) (s : Sys) (t : Nat) (c : Call) (chs : Nat → Choice) : Res (Sys × Ret) :=
  match (c.prog ro (ar t)).run chs s.σ (s.tl t) with
  | .ok (σ, tl, r) => .ok (⟨σ, fun u => if u = t then tl else s.tl u⟩, r)
  | .fatal m => .fatal m
  | .segv => .segv
  | .ub w => .ub w
  | .hang => .hang

/-- One step of the system. `ar` is the arena of each thread. -/
def Sys.step (ro : Ro) (ar : Nat → Nat) (s : Sys) : Act → Res (Sys × Ev)
  | .call t c chs =>
      match s.call ro ar t c chs with
      | .ok (s, r) => .ok (s, .call t c r)
      | .fatal m => .fatal m
      | .segv => .segv
      | .ub w => .ub w
      | .hang => .hang
  | .store x v => .ok ({ s with σ := { s.σ with vm := s.σ.vm.appStore x v } }, .store x v)
  | .errno t e => .ok ({ s with tl := fun u => if u = t then { s.tl u with errno := e } else s.tl u }, .errno t e)

/-- The choices of the environment that are considered. The remapping of an outgrown region table does not fail with ENOMEM
(the code ignores this failure, see `c24_stale_after_ignored_failure`). If `calm`, the kernel never refuses memory. -/
def Env (calm : Bool) (ch : Choice) : Prop :=
  ch.growRemap ≠ .enomem ∧ (calm = true → ch.trailUnmap ≠ .enomem ∧ ∀ k, ch.sys k ≠ .enomem)

/-- Arguments are 64-bit numbers, the environment behaves as described. -/
def Act.Ok (calm : Bool) : Act → Prop
  | .call _ c chs => c.Ok ∧ ∀ n, Env calm (chs n)
  | _ => True

/-- What the application does: given the history and the state, which actions it may take next. -/
abbrev Client := List Ev → Sys → Act → Prop

/-- An application that does anything, including stores to memory it has freed and calls with wild pointers. -/
def anyClient : Client := fun _ _ _ => True

/-- An environment in which no system call fails. -/
def Choice.quiet : Choice :=
  { sys := fun _ => .ok, addr := 0, u16 := fun _ => 0, canary := 0, guard := 0, labelErr := fun _ => none, growRemap := .ok, trailUnmap := .ok, memtag := false }

/-- A call of `malloc_usable_size(p)` in state `σ` returns `u`. -/
def Usable (ro : Ro) (σ : St) (p u : Nat) : Prop :=
  ∃ tl', (hUsableSize ro p).run (fun _ => Choice.quiet) σ ⟨0, false⟩ = .ok (σ, tl', u)

/-- Block `p` is live and was created with an alignment above the page size although its size is that of a small
allocation. -/
def OverAligned (g : Cfg) (i : Info) : Prop := (∃ al, i.align = some al ∧ 4096 < al) ∧ i.size + g.canarySize ≤ g.maxSlab

/-- An application without memory errors: it stores only to usable bytes of live blocks, frees and reallocates only live
blocks or NULL, passes the size it asked for to `free_sized`, and asks for the object size of pointers into live blocks
only. The one restriction that goes beyond this concerns `realloc` on small over-aligned blocks
(see `c11_overaligned_realloc_ub`) and `free_sized` on blocks from the aligned functions (see `c12_aligned_sized_abort`). -/
def goodClient (ro : Ro) : Client := fun h s a =>
  match a with
  | .store x _ => ∃ p u, (live h p).isSome ∧ Usable ro s.σ p u ∧ p ≤ x ∧ x < p + u
  | .call _ (.free p) _ => p = 0 ∨ (live h p).isSome
  | .call _ (.freeSized p n) _ => p = 0 ∨ live h p = some ⟨n, none⟩
  | .call _ (.realloc p _) _ => p = 0 ∨ ∃ i, live h p = some i ∧ ¬ OverAligned ro.g i
  | .call _ (.usableSize p) _ => p = 0 ∨ (live h p).isSome
  | .call _ (.objectSize p) _ => p = 0 ∨ (∃ q u, (live h q).isSome ∧ Usable ro s.σ q u ∧ q ≤ p ∧ p < q + u)
  | _ => True

/-- Page `pg` may be changed by others than the allocator: it is theirs, or it is not mapped. -/
def Foreign (h : List Ev) (vm : Vm) (pg : Nat) : Prop := foreign h pg = true ∨ vm.prot pg = .unmapped

/-- The states reachable from a successful initialisation, with the history that leads there. At any time, others than the
allocator (the application, the loader, the C library, other allocators) map pages that are not in use, and change and
release the pages that they have mapped. -/
inductive Reach (g : Cfg) (ro : Ro) (ar : Nat → Nat) (calm : Bool) (D : Client) : List Ev → Sys → Prop where
  | init {σ : St} {tl : Nat → Tl} (h : Initialised g ro σ) (htl : ∀ t, (tl t).unsealed = false) : Reach g ro ar calm D [] ⟨σ, tl⟩
  | step {h : List Ev} {s s' : Sys} {a : Act} {e : Ev} (hr : Reach g ro ar calm D h s) (ha : a.Ok calm) (hd : D h s a)
      (hs : s.step ro ar a = .ok (s', e)) : Reach g ro ar calm D (e :: h) s'
  | other {h : List Ev} {s : Sys} (hr : Reach g ro ar calm D h s) (pg : Nat) (pr : Prot) (data : Nat → BitVec 8) (hp : Foreign h s.σ.vm pg) :
      Reach g ro ar calm D (.foreign pg (pr != .unmapped) :: h) { s with σ := { s.σ with vm := s.σ.vm.foreign pg pr data } }

end HM
