import Verif.ChaCha
import Verif.Res
/-
The random generator (random.c:27-112).
-/
namespace HM

/-- random.h:7 `RANDOM_CACHE_SIZE`. -/
def rngCacheSize : Nat := 256
/-- random.h:8 `RANDOM_RESEED_SIZE`. -/
def rngReseedSize : Nat := 256 * 1024

/-- random.h:10-15 `struct random_state`, and the number of seeds that have been taken from the operating system for it. -/
structure Rng where
  index : Nat
  reseed : Nat
  ctx : Words
  cache : List (BitVec 8)
  seeds : Nat

/-- random.c:28-33 and 37-42: set the generator up from 40 random bytes. -/
def Rng.setup (r : Rng) (rnd : List (BitVec 8)) : Rng :=
  { r with ctx := ivSetup (keySetup r.ctx rnd) (rnd.drop 32), index := rngCacheSize, reseed := 0 }

/-- random.c:27-34 `random_state_init`. `os n` is seed number `n` that `get_random_seed` obtains (Seed.lean). -/
def Rng.init (os : Nat → List (BitVec 8)) (r : Rng) : Rng := { r.setup (os r.seeds) with seeds := r.seeds + 1 }

/-- random.c:45-52 `refill`. -/
def Rng.refill (os : Nat → List (BitVec 8)) (r : Rng) : Rng :=
  let r := if rngReseedSize ≤ r.reseed then r.init os else r
  let k := keystreamBytes r.ctx rngCacheSize
  { r with ctx := k.1, cache := k.2, index := 0, reseed := r.reseed + rngCacheSize }

/-- random.c:62-64. -/
def Rng.refillIfEmpty (os : Nat → List (BitVec 8)) (r : Rng) : Rng := if r.index = rngCacheSize then r.refill os else r

/-- random.c:61-73: the loop of `get_random_bytes`. Undefined if the index is beyond the cache. -/
def Rng.cached (os : Nat → List (BitVec 8)) (r : Rng) (size : Nat) : Res (Rng × List (BitVec 8)) :=
  if size = 0 then .ok (r, [])
  else if (r.refillIfEmpty os).index < rngCacheSize then
    let copy := min size (rngCacheSize - (r.refillIfEmpty os).index)
    match Rng.cached os { r.refillIfEmpty os with index := (r.refillIfEmpty os).index + copy } (size - copy) with
    | .ok (r', out) => .ok (r', ((r.refillIfEmpty os).cache.drop (r.refillIfEmpty os).index).take copy ++ out)
    | e => e
  else .ub "random: index beyond the cache"
termination_by size
decreasing_by omega

/-- random.c:54-74 `get_random_bytes`. The size is truncated to 32 bits when passed to `chacha_keystream_bytes`. -/
def Rng.bytes (os : Nat → List (BitVec 8)) (r : Rng) (size : Nat) : Res (Rng × List (BitVec 8)) :=
  if rngCacheSize / 2 < size then
    let k := keystreamBytes r.ctx (size % 2 ^ 32)
    .ok ({ r with ctx := k.1 }, k.2)
  else r.cached os size

/-- random.c:76-85 `get_random_u16` and random.c:103-112 `get_random_u64`: the bytes of the value, `n` is 2 or 8. -/
def Rng.value (os : Nat → List (BitVec 8)) (r : Rng) (n : Nat) : Res (Rng × List (BitVec 8)) :=
  let r := if rngCacheSize - r.index < n then r.refill os else r
  if r.index + n ≤ rngCacheSize then .ok ({ r with index := r.index + n }, (r.cache.drop r.index).take n)
  else .ub "random: index beyond the cache"

/-- A request for random data. -/
inductive RandomReq where
  | bytes (size : Nat)
  | u16
  | u64

/-- The number of bytes requested. -/
def RandomReq.size : RandomReq → Nat
  | .bytes n => n
  | .u16 => 2
  | .u64 => 8

def Rng.req (os : Nat → List (BitVec 8)) (r : Rng) : RandomReq → Res (Rng × List (BitVec 8))
  | .bytes n => r.bytes os n
  | .u16 => r.value os 2
  | .u64 => r.value os 8

/-- The requests one after the other, and all the bytes handed out. -/
def Rng.reqs (os : Nat → List (BitVec 8)) (r : Rng) : List RandomReq → Res (Rng × List (BitVec 8))
  | [] => .ok (r, [])
  | q :: qs =>
      match r.req os q with
      | .ok (r, out) =>
          match r.reqs os qs with
          | .ok (r, out') => .ok (r, out ++ out')
          | e => e
      | e => e

/-- random.c:36-43 `random_state_init_from_random_state`: the new state and that of the source. -/
def Rng.initFrom (os : Nat → List (BitVec 8)) (r source : Rng) : Res (Rng × Rng) :=
  match source.bytes os 40 with
  | .ok (source, rnd) => .ok (r.setup rnd, source)
  | .fatal m => .fatal m
  | .segv => .segv
  | .ub m => .ub m
  | .hang => .hang

end HM
