/-
Switching memory tagging off while the process runs (h_malloc.c:2170-2189 `h_malloc_disable_memory_tagging`), together with
the initialisation (:1197-1299) and the reads of the flag by other threads: one step per lock operation, system call or access to
the page `ro` (:70-85). In a build with memory tagging (HAS_ARM_MTE).

What the allocator does with the flag is described in Small.lean, where every action is told whether tagging is enabled.
Here the data of the allocator is left out: an allocation is a sequence of reads of the flag. Memory is sequentially
consistent (the code reads the flag without a lock and without an atomic operation).
-/
namespace HM.M

/-- Where a thread is. -/
inductive Pt where
  /-- in the application, or in functions that are not described here -/
  | app
  /-- h_malloc.c:2172, waiting for `init_lock` -/
  | disLock
  /-- :2173, about to read the flag -/
  | disRead
  /-- :2174, about to ask whether the allocator is initialised -/
  | disInit
  /-- :2175, about to make `ro` writable -/
  | disProtectRw
  /-- :2178, about to set the flag -/
  | disSet
  /-- :2179, about to make `ro` read-only -/
  | disProtectRo
  /-- :2184, about to set the flag (the allocator is not initialised) -/
  | disSetEarly
  /-- :2187, about to release `init_lock` -/
  | disUnlock
  /-- :1310 (in `init`), about to ask whether the allocator is initialised -/
  | allocInit
  /-- :1199, waiting for `init_lock` -/
  | initLock
  /-- :1201, about to ask again whether the allocator is initialised -/
  | initAgain
  /-- :1206-1242, about to store to `ro` -/
  | initStore
  /-- :1246, about to read the flag -/
  | initRead
  /-- :1247 or :1249, about to map the slab region, with tag checking or without it, and to store its address to `ro` -/
  | initMap (mte : Bool)
  /-- :1261 (repeatedly), about to store to `ro` -/
  | initStore2
  /-- :1286, about to publish: the store to `slab_region_end`, which is in `ro` -/
  | initPublish
  /-- :1288, about to make `ro` read-only -/
  | initProtectRo
  /-- :1293 or :1202, about to release `init_lock` -/
  | initUnlock
  /-- in an allocation or deallocation that uses the slab region; reads the flag any number of times (:473, :508, :520, :627, :664, :691, :720, :808) -/
  | use
  deriving DecidableEq

/-- The thread is between locking and unlocking `init_lock`. -/
def Pt.locked : Pt → Bool
  | .app | .disLock | .allocInit | .initLock | .use => false
  | _ => true

/-- `lock` is the thread that has locked `init_lock` (h_malloc.c:1195). `disabled` is `ro.is_memtag_disabled` (:81), `inited` says whether
`ro.slab_region_end` is set (:1185-1187), `writable` whether the page `ro` is. `mte`: the slab region is mapped with PROT_MTE. -/
structure MSt where
  lock : Option Nat
  disabled : Bool
  inited : Bool
  writable : Bool
  mte : Bool
  pt : Nat → Pt

/-- The start of the process: static data is zero and writable. -/
def MSt.start : MSt := ⟨none, false, false, true, false, fun _ => .app⟩

/-- What can be observed. -/
inductive MEv where
  /-- `h_malloc_disable_memory_tagging` is called -/
  | disCall
  /-- it returns -/
  | disRet
  /-- the flag is set -/
  | set
  /-- a part of the allocator that handles slots finds tagging enabled, or not -/
  | sees (enabled : Bool)
  /-- an allocation or deallocation begins -/
  | useCall
  /-- it returns -/
  | useRet
  /-- the thread forks -/
  | fork
  /-- anything else -/
  | tau
  deriving DecidableEq

/-- The thread goes on at `q`. -/
def MSt.goto (s : MSt) (t : Nat) (q : Pt) : MSt := { s with pt := fun u => if u = t then q else s.pt u }

/-- What becomes of the process in a step of a thread. -/
inductive Out where
  | ok (s : MSt) (e : MEv)
  /-- a store to `ro` while it is read-only -/
  | segv
  /-- `fatal_error` (util.c:33-44) -/
  | fatal
  /-- the thread cannot run -/
  | blocked

/-- A store to the page `ro`. -/
def MSt.store (s : MSt) (r : Out) : Out := if s.writable then r else .segv

/-- One step of thread `t`; `fails` says whether the system call made in it fails, `again` whether a loop goes on and which of two functions an application calls. -/
def MSt.step (s : MSt) (t : Nat) (fails again : Bool) : Out :=
  match s.pt t with
  | .app => if again then .ok (s.goto t .disLock) .disCall else .ok (s.goto t .allocInit) .useCall
  | .disLock => if s.lock = none then .ok { s.goto t .disRead with lock := some t } .tau else .blocked
  | .disRead => .ok (s.goto t (if s.disabled then .disUnlock else .disInit)) .tau
  | .disInit => .ok (s.goto t (if s.inited then .disProtectRw else .disSetEarly)) .tau
  | .disProtectRw => if fails then .fatal else .ok { s.goto t .disSet with writable := true } .tau
  | .disSet => s.store (.ok { s.goto t .disProtectRo with disabled := true } .set)
  | .disProtectRo => if fails then .fatal else .ok { s.goto t .disUnlock with writable := false } .tau
  | .disSetEarly => s.store (.ok { s.goto t .disUnlock with disabled := true } .set)
  | .disUnlock => .ok { s.goto t .app with lock := none } .disRet
  | .allocInit => .ok (s.goto t (if s.inited then .use else .initLock)) .tau
  | .initLock => if s.lock = none then .ok { s.goto t .initAgain with lock := some t } .tau else .blocked
  | .initAgain => .ok (s.goto t (if s.inited then .initUnlock else .initStore)) .tau
  | .initStore => s.store (.ok (s.goto t (if again then .initStore else .initRead)) .tau)
  | .initRead => .ok (s.goto t (.initMap (!s.disabled))) .tau
  | .initMap b => if fails then .fatal else s.store (.ok { s.goto t .initStore2 with mte := b } .tau)
  | .initStore2 => s.store (.ok (s.goto t (if again then .initStore2 else .initPublish)) .tau)
  | .initPublish => s.store (.ok { s.goto t .initProtectRo with inited := true } .tau)
  | .initProtectRo => if fails then .fatal else .ok { s.goto t .initUnlock with writable := false } .tau
  | .initUnlock => .ok { s.goto t .use with lock := none } .tau
  | .use => if again then .ok s (.sees !s.disabled) else .ok (s.goto t .app) .useRet

/-- A fork by thread `t`, in the child: the other threads are gone (here they are given back to the application, which may use the
number of a thread for a new one), the memory is as it was. `init_lock` is not one of the locks that the fork handlers reset (h_malloc.c:1170-1183). -/
def MSt.fork (s : MSt) (t : Nat) : MSt := { s with pt := fun u => if u = t then s.pt t else .app }

/-- The executions from the state `s0`: the history, latest event first, and the state. With `quiet`, no thread forks while another is between
locking and unlocking `init_lock`. -/
inductive MSteps (quiet : Bool) (s0 : MSt) : List (Nat × MEv) → MSt → Prop where
  | refl : MSteps quiet s0 [] s0
  | step {h : List (Nat × MEv)} {s s' : MSt} {e : MEv} (r : MSteps quiet s0 h s) (t : Nat) (fails again : Bool) (hs : s.step t fails again = .ok s' e) :
      MSteps quiet s0 ((t, e) :: h) s'
  | fork {h : List (Nat × MEv)} {s : MSt} (r : MSteps quiet s0 h s) (t : Nat) (ht : s.pt t = .app) (hq : quiet = true → ∀ u, (s.pt u).locked = false) :
      MSteps quiet s0 ((t, .fork) :: h) (s.fork t)

/-- The executions of the process. -/
abbrev MReach (quiet : Bool) : List (Nat × MEv) → MSt → Prop := MSteps quiet .start

end HM.M
