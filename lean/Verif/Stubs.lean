import Verif.Boot
/-
The remaining exported functions: those that exist only because the C library has them, and the constructor that
initialises the allocator when it is loaded.
-/
namespace HM

/-- errno.h -/
notation "ENOSYS" => (38 : Nat)

/-- bionic's malloc.h -/
def M_PURGE : Int := -101

/-- h_malloc.c:1867-1875 `h_mallopt` in a process that is initialised (`some ro`) or not; `android` is `__ANDROID__`. The
call of `h_malloc_trim` in a process that is not initialised returns at once (1878-1880). -/
def hMallopt (android : Bool) (ro : Option Ro) (param : Int) : Prog Int :=
  if android ∧ param = M_PURGE then
    match ro with
    | none => return 1
    | some ro => do
        let _ ← hTrim ro
        return 1
  else return 0

/-- h_malloc.c:2141-2145 `h_malloc_iterate`. -/
def hMallocIterate : Prog Int := die "not implemented"

/-- h_malloc.c:2159-2162 `h_malloc_get_state`; 0 is NULL. -/
def hMallocGetState : Prog Nat := do
  setErrno ENOSYS
  return 0

/-- h_malloc.c:2164-2166 `h_malloc_set_state`. -/
def hMallocSetState : Prog Int := return -2

/-- h_malloc.c:1315-1321 `trigger_early_init`: `h_free(h_malloc(16))`, in a process where nothing has been called yet (or
something has). Choices `chs` are for `malloc`, `chs'` for `free`. The result includes what `malloc` has returned. -/
def Boot.earlyInit (g : Cfg) (l : Layout) (ar : Nat → Nat) (b : Boot) (t : Nat) (chs chs' : Nat → Choice) : Res (Boot × Nat) :=
  match b.call g l ar t (.malloc 16) chs with
  | .ok (b, .ptr p) =>
      match b.call g l ar t (.free p) chs' with
      | .ok (b, _) => .ok (b, p)
      | .fatal m => .fatal m
      | .segv => .segv
      | .ub w => .ub w
      | .hang => .hang
  | .ok _ => .ub "no pointer"
  | .fatal m => .fatal m
  | .segv => .segv
  | .ub w => .ub w
  | .hang => .hang

end HM
