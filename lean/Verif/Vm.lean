import Verif.Util
import Verif.Res
/-
Virtual memory as seen by the allocator, and the wrappers of memory.c.

Pages mapped by others than the allocator (program text, stacks, mappings made by the application or by other libraries)
are part of the memory as well; they appear, change and disappear by `Vm.foreign`.
-/
namespace HM

/-- Protection of a page. Protections other than PROT_NONE and PROT_READ | PROT_WRITE are not used by the allocator. -/
inductive Prot where
  | unmapped
  | none
  | rw
  deriving Repr, DecidableEq

/-- Page protections (by page number) and byte contents (by address). -/
structure Vm where
  prot : Nat → Prot
  mem : Nat → BitVec 8

/-- Exclusive upper bound of user space addresses. Real systems use less; only `ADDR_END ≤ 2^63` matters. -/
notation "ADDR_END" => (9223372036854775808 : Nat)

/-- Outcome chosen by the kernel for one system call: success, ENOMEM, or another error. -/
inductive SysRes where
  | ok
  | enomem
  | other
  deriving Repr, DecidableEq

/-- Page number `pg` belongs to the page-rounded range starting at `a` with `n` bytes. -/
def inPages (a n pg : Nat) : Prop := a / PAGE ≤ pg ∧ pg < (a + n + 4095) / PAGE

instance (a n pg : Nat) : Decidable (inPages a n pg) := by unfold inPages; infer_instance

/-- Address `x` belongs to the `n` bytes at `a`. -/
def inRange (a n x : Nat) : Prop := a ≤ x ∧ x < a + n

instance (a n x : Nat) : Decidable (inRange a n x) := by unfold inRange; infer_instance

/-- Every page of the page-rounded range satisfies `f`. -/
def Vm.allPages (a n : Nat) (f : Nat → Bool) : Bool :=
  decide (∀ k, k < (a + n + 4095) / PAGE - a / PAGE → f (a / PAGE + k) = true)

/-- All pages of the range get protection `pr`. -/
def Vm.setProt (vm : Vm) (a n : Nat) (pr : Prot) : Vm :=
  { vm with prot := fun pg => if inPages a n pg then pr else vm.prot pg }

/-- All bytes of the pages of the range become zero. -/
def Vm.zeroPages (vm : Vm) (a n : Nat) : Vm :=
  { vm with mem := fun x => if inPages a n (x / PAGE) then 0#8 else vm.mem x }

/-- `memset(a, v, n)` without access check. -/
def Vm.fill (vm : Vm) (a n : Nat) (v : BitVec 8) : Vm :=
  { vm with mem := fun x => if inRange a n x then v else vm.mem x }

/-- `memcpy(dst, src, n)` without access check. -/
def Vm.copy (vm : Vm) (dst src n : Nat) : Vm :=
  { vm with mem := fun x => if inRange dst n x then vm.mem (src + (x - dst)) else vm.mem x }

/-- All bytes of the range can be read and written. -/
def Vm.accessible (vm : Vm) (a n : Nat) : Bool :=
  n == 0 || Vm.allPages a n (fun pg => vm.prot pg == .rw)

/-- memory.c:20-29 `memory_map`. `addr` is the kernel's choice; a range that is not page aligned, not free or not in
user space is read as ENOMEM. A zero size is EINVAL, hence fatal. -/
def memoryMap (vm : Vm) (r : SysRes) (addr size : Nat) : Res (Vm × Option Nat) :=
  match r with
  | .other => .fatal "non-ENOMEM mmap failure"
  | .enomem => .ok (vm, none)
  | .ok =>
      if size = 0 then .fatal "non-ENOMEM mmap failure"
      else if addr % PAGE = 0 ∧ PAGE ≤ addr ∧ addr + size ≤ ADDR_END ∧
          Vm.allPages addr size (fun pg => vm.prot pg == .unmapped) then
        .ok ((vm.setProt addr size .none).zeroPages addr size, some addr)
      else .ok (vm, none)

/-- memory.c:45-52 `memory_map_fixed`; the result is `true` on failure, as in the code. -/
def memoryMapFixed (vm : Vm) (r : SysRes) (ptr size : Nat) : Res (Vm × Bool) :=
  if ptr % PAGE ≠ 0 ∨ size = 0 then .fatal "non-ENOMEM MAP_FIXED mmap failure"
  else
    match r with
    | .other => .fatal "non-ENOMEM MAP_FIXED mmap failure"
    | .enomem => .ok (vm, true)
    | .ok => .ok ((vm.setProt ptr size .none).zeroPages ptr size, false)

/-- memory.c:54-60 `memory_unmap`; `true` on failure. -/
def memoryUnmap (vm : Vm) (r : SysRes) (ptr size : Nat) : Res (Vm × Bool) :=
  if ptr % PAGE ≠ 0 ∨ size = 0 then .fatal "non-ENOMEM munmap failure"
  else
    match r with
    | .other => .fatal "non-ENOMEM munmap failure"
    | .enomem => .ok (vm, true)
    | .ok => .ok (vm.setProt ptr size .unmapped, false)

/-- memory.c:62-80 `memory_protect_rw`; `true` on failure. Fails if a page is not mapped. A failing call has no
effect. -/
def memoryProtectRw (vm : Vm) (r : SysRes) (ptr size : Nat) : Res (Vm × Bool) :=
  if ptr % PAGE ≠ 0 then .fatal "non-ENOMEM mprotect failure"
  else
    match r with
    | .other => .fatal "non-ENOMEM mprotect failure"
    | .enomem => .ok (vm, true)
    | .ok =>
        if Vm.allPages ptr size (fun pg => vm.prot pg != .unmapped) then .ok (vm.setProt ptr size .rw, false)
        else .ok (vm, true)

/-- memory.c:96-103 `memory_remap_fixed` for `new_size ≥ old_size` (the only use, h_malloc.c:1612, is after the cases
of equal and smaller sizes have returned); `true` on failure. The moved mapping keeps its contents and protection, the
extension is zero, the old range is unmapped. A failing call has no effect. -/
def memoryRemapFixed (vm : Vm) (r : SysRes) (old oldSize new newSize : Nat) : Res (Vm × Bool) :=
  if new % PAGE ≠ 0 ∨ old % PAGE ≠ 0 ∨ newSize = 0 ∨ oldSize = 0 then .fatal "non-ENOMEM MREMAP_FIXED mremap failure"
  else
    match r with
    | .other => .fatal "non-ENOMEM MREMAP_FIXED mremap failure"
    | .enomem => .ok (vm, true)
    | .ok =>
        .ok ({ prot := fun pg => if inPages new newSize pg then .rw
                 else if inPages old oldSize pg then .unmapped else vm.prot pg
               mem := fun x => if inPages new newSize (x / PAGE) then
                   (if inPages old oldSize ((old + (x - new)) / PAGE) then vm.mem (old + (x - new)) else 0#8)
                 else vm.mem x }, false)

/-- memory.c:106-112 `memory_purge` (MADV_DONTNEED); the result is ignored by every caller. -/
def memoryPurge (vm : Vm) (r : SysRes) (ptr size : Nat) : Res Vm :=
  if ptr % PAGE ≠ 0 then .fatal "non-ENOMEM MADV_DONTNEED madvise failure"
  else
    match r with
    | .other => .fatal "non-ENOMEM MADV_DONTNEED madvise failure"
    | .enomem => .ok vm
    | .ok => .ok (vm.zeroPages ptr size)

/-- A store by the application: it takes effect if the page is writable. If not, the application is killed or wrote to
memory that is not mapped; either way nothing changes here. -/
def Vm.appStore (vm : Vm) (x : Nat) (v : BitVec 8) : Vm :=
  if vm.prot (x / PAGE) = .rw then { vm with mem := fun y => if y = x then v else vm.mem y } else vm

/-- Someone else than the allocator maps page `pg`, changes its protection or its contents, or (`pr = unmapped`) releases
it. -/
def Vm.foreign (vm : Vm) (pg : Nat) (pr : Prot) (data : Nat → BitVec 8) : Vm :=
  ⟨fun q => if q = pg then pr else vm.prot q, fun x => if x / PAGE = pg then data x else vm.mem x⟩

end HM
