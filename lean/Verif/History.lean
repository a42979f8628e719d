import Verif.Machine
/-
The specification side: API calls, histories of calls, and which blocks a history leaves live. Nothing here depends on
how the allocator works.
-/
namespace HM

/-- An API call. A pointer argument 0 is NULL. `memalign` is the same function as `aligned_alloc`. -/
inductive Call where
  | malloc (n : Nat)
  | calloc (n k : Nat)
  | realloc (p n : Nat)
  | posixMemalign (al n : Nat)
  | alignedAlloc (al n : Nat)
  | valloc (n : Nat)
  | pvalloc (n : Nat)
  | free (p : Nat)
  | freeSized (p n : Nat)
  | usableSize (p : Nat)
  | objectSize (p : Nat)
  | objectSizeFast (p : Nat)
  | trim
  | mallinfo

/-- The arguments are 64-bit numbers. -/
def Call.Ok : Call → Prop
  | .malloc n => n < W64
  | .calloc n k => n < W64 ∧ k < W64
  | .realloc p n => p < W64 ∧ n < W64
  | .posixMemalign al n => al < W64 ∧ n < W64
  | .alignedAlloc al n => al < W64 ∧ n < W64
  | .valloc n => n < W64
  | .pvalloc n => n < W64
  | .free p => p < W64
  | .freeSized p n => p < W64 ∧ n < W64
  | .usableSize p => p < W64
  | .objectSize p => p < W64
  | .objectSizeFast p => p < W64
  | .trim => True
  | .mallinfo => True

/-- What a call returns. `ptr 0` is NULL; `memalign` is the result of `posix_memalign`: an error code, or success and the
pointer stored. -/
inductive Ret where
  | unit
  | ptr (p : Nat)
  | memalign (r : Except Errno Nat)
  | num (n : Nat)
  | bool (b : Bool)
  | info (i : MallInfo)

/-- What happens: calls that return, stores by the application, changes of errno by the application, changes of page `pg` by
someone else than the allocator, who has it mapped afterwards (`mapped`) or not. -/
inductive Ev where
  | call (t : Nat) (c : Call) (r : Ret)
  | store (x : Nat) (v : BitVec 8)
  | errno (t : Nat) (e : Errno)
  | foreign (pg : Nat) (mapped : Bool)

/-- A live block: the size last requested for it, and the alignment requested when it was created (none for `malloc`,
`calloc` and `realloc`). -/
structure Info where
  size : Nat
  align : Option Nat
  deriving DecidableEq

/-- What an allocation call other than `realloc` asks for. -/
def Call.request : Call → Option Info
  | .malloc n => some ⟨n, none⟩
  | .calloc n k => some ⟨n * k, none⟩
  | .posixMemalign al n => some ⟨n, some al⟩
  | .alignedAlloc al n => some ⟨n, some al⟩
  | .valloc n => some ⟨n, some 4096⟩
  | .pvalloc n => some ⟨(n + 4095) / 4096 * 4096, some 4096⟩
  | _ => none

/-- The block returned, if any. -/
def Ret.block : Ret → Option Nat
  | .ptr p => if p = 0 then none else some p
  | .memalign (.ok p) => some p
  | _ => none

/-- The live blocks after an event, given those before. `realloc` with an argument that is not a live block changes
nothing (this is misuse). A block that `realloc` leaves where it is keeps the alignment it was created with. -/
def liveStep (L : Nat → Option Info) : Ev → Nat → Option Info
  | .call _ (.free p) _ => fun x => if x = p then none else L x
  | .call _ (.freeSized p _) _ => fun x => if x = p then none else L x
  | .call _ (.realloc p n) r =>
      match r.block with
      | none => L
      | some q =>
          if p = 0 then fun x => if x = q then some ⟨n, none⟩ else L x
          else
            match L p with
            | none => L
            | some i => fun x => if x = q then some ⟨n, if q = p then i.align else none⟩ else if x = p then none else L x
  | .call _ c r =>
      match c.request, r.block with
      | some i, some q => fun x => if x = q then some i else L x
      | _, _ => L
  | .store _ _ => L
  | .errno _ _ => L
  | .foreign _ _ => L

/-- The live blocks after a history (newest event first). -/
def live : List Ev → Nat → Option Info
  | [] => fun _ => none
  | e :: h => liveStep (live h) e

/-- The pages that others than the allocator have mapped after a history (newest event first). -/
def foreign : List Ev → Nat → Bool
  | [] => fun _ => false
  | .foreign pg m :: h => fun q => if q = pg then m else foreign h q
  | _ :: h => foreign h

/-- The block that a call creates. `realloc` creates one unless it leaves the block where it is. -/
def Ev.created : Ev → Option Nat
  | .call _ (.realloc p _) r => match r.block with | some q => if q = p then none else some q | none => none
  | .call _ c r => match c.request with | some _ => r.block | none => none
  | _ => none

end HM
