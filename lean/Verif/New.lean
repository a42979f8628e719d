import Verif.Seq
/-
The C++ operators (new.cc). They are programs over the calls of the allocator: `NewProg`.
-/
namespace HM

/-- What a call of the new-handler does: it returns, throws `std::bad_alloc`, or throws something else. -/
inductive Handler where
  | returns
  | throwsBadAlloc
  | throwsOther

/-- How an operator ends: it returns a pointer (0 is null), throws `std::bad_alloc`, lets an exception of the handler
propagate, or the program is terminated because an exception leaves a `noexcept` function. -/
inductive NewRes where
  | ptr (p : Nat)
  | badAlloc
  | other
  | terminate
  deriving DecidableEq

/-- What happens during an operator: a call of the allocator with its result, or of the handler. -/
inductive NewEv where
  | call (c : Call) (p : Nat)
  | handler (h : Handler)

/-- The behaviour of the rest of the world: the result of each call of the allocator, and the handler that is installed
(`none`: none) before each further attempt, with what it does. -/
structure NewEnv where
  first : Nat
  later : List (Option Handler × Nat)

/-- new.cc:11-33, 83-105 `handle_out_of_memory`. `c` is the call of the allocator: `h_malloc(size)` or
`h_aligned_alloc(alignment, size)`. `none`: the handler has not returned yet. An exception other than `bad_alloc` propagates. -/
def handleOutOfMemory (c : Call) (nothrow : Bool) : List (Option Handler × Nat) → Option NewRes × List NewEv
  | [] => (none, [])
  | (none, _) :: _ => (some (if nothrow then .ptr 0 else .badAlloc), [])
  | (some .throwsBadAlloc, _) :: _ => (some (if nothrow then .ptr 0 else .badAlloc), [.handler .throwsBadAlloc])
  | (some .throwsOther, _) :: _ => (some .other, [.handler .throwsOther])
  | (some .returns, p) :: env =>
      if p = 0 then
        let r := handleOutOfMemory c nothrow env
        (r.1, .handler .returns :: .call c p :: r.2)
      else (some (.ptr p), [.handler .returns, .call c p])

/-- new.cc:35-41, 107-113 `new_impl`. -/
def newImpl (c : Call) (nothrow : Bool) (e : NewEnv) : Option NewRes × List NewEv :=
  if e.first ≠ 0 then (some (.ptr e.first), [.call c e.first])
  else
    let r := handleOutOfMemory c nothrow e.later
    (r.1, .call c e.first :: r.2)

/-- The operators new: plain or array, with or without alignment, with or without `std::nothrow`. -/
structure NewOp where
  size : Nat
  align : Option Nat
  nothrow : Bool

/-- The call of the allocator that an operator makes (new.cc:36, 108). -/
def NewOp.call (o : NewOp) : Call :=
  match o.align with
  | none => .malloc o.size
  | some al => .alignedAlloc al o.size

/-- new.cc:43-57, 115-129: the operators; those with `std::nothrow` are `noexcept`. -/
def NewOp.run (o : NewOp) (e : NewEnv) : Option NewRes × List NewEv :=
  let r := newImpl o.call o.nothrow e
  match r.1 with
  | some .other => (some (if o.nothrow then .terminate else .other), r.2)
  | some .badAlloc => (some (if o.nothrow then .terminate else .badAlloc), r.2)
  | x => (x, r.2)

/-- The operators delete: with or without size, with or without alignment. -/
structure DeleteOp where
  ptr : Nat
  size : Option Nat
  align : Option Nat

/-- new.cc:59-81, 131-153: the call of the allocator that an operator delete makes; the alignment is ignored. -/
def DeleteOp.call (o : DeleteOp) : Call :=
  match o.size with
  | none => .free o.ptr
  | some n => .freeSized o.ptr n

end HM
