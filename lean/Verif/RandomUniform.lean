import Verif.Util
import Mathlib.Order.Interval.Finset.Nat
/-
Bounded random numbers (random.c:87-128). Raw generator outputs are an arbitrary list of draws.
-/
namespace HM

/-- random.c:94-98: retry loop of `get_random_u16_uniform`. `none`: the list of draws is exhausted. -/
def u16Loop (bound threshold : Nat) : Nat → List Nat → Option (Nat × List Nat)
  | multiresult, [] =>
    if multiresult % 2 ^ 16 < threshold then none else some (multiresult / 2 ^ 16, [])
  | multiresult, random :: rest =>
    if multiresult % 2 ^ 16 < threshold then u16Loop bound threshold ((random * bound) % 2 ^ 32) rest
    else some (multiresult / 2 ^ 16, random :: rest)

/-- random.c:93 `u16 threshold = -bound % bound`: both operands are promoted to `int`, so this is a truncating division
of a negative number, converted back to `u16`. -/
def u16Threshold (bound : Nat) : Nat := (Int.tmod (-(bound : Int)) bound % 65536).toNat

/-- random.c:88-101 `get_random_u16_uniform`. -/
def getRandomU16Uniform (bound : Nat) : List Nat → Option (Nat × List Nat)
  | [] => none
  | random :: rest =>
    let multiresult := (random * bound) % 2 ^ 32
    if multiresult % 2 ^ 16 < bound then u16Loop bound (u16Threshold bound) multiresult rest
    else some (multiresult / 2 ^ 16, rest)

/-- random.c:121-125: retry loop of `get_random_u64_uniform` (128-bit product). -/
def u64Loop (bound threshold : Nat) : Nat → List Nat → Option (Nat × List Nat)
  | multiresult, [] =>
    if multiresult % 2 ^ 64 < threshold then none else some (multiresult / 2 ^ 64, [])
  | multiresult, random :: rest =>
    if multiresult % 2 ^ 64 < threshold then u64Loop bound threshold (random * bound) rest
    else some (multiresult / 2 ^ 64, random :: rest)

/-- random.c:120 `u64 threshold = -bound % bound` (unsigned 64-bit). -/
def u64Threshold (bound : Nat) : Nat := sub64 0 bound % bound

/-- random.c:115-128 `get_random_u64_uniform`. -/
def getRandomU64Uniform (bound : Nat) : List Nat → Option (Nat × List Nat)
  | [] => none
  | random :: rest =>
    let multiresult := random * bound
    if multiresult % 2 ^ 64 < bound then u64Loop bound (u64Threshold bound) multiresult rest
    else some (multiresult / 2 ^ 64, rest)

/-- Single-draw view used by the allocator model: the value returned by `get_random_u16_uniform` for one draw. -/
def u16Uniform (raw bound : Nat) : Nat := (raw % 65536 * (bound % 65536)) / 65536

/-- Value returned by `get_random_u64_uniform` for the accepted draw. -/
def u64Uniform (raw bound : Nat) : Nat := (raw % W64 * bound) / W64

theorem u64Uniform_lt (raw : Nat) {bound : Nat} (h : 0 < bound) : u64Uniform raw bound < bound := by
  unfold u64Uniform
  rw [Nat.div_lt_iff_lt_mul (by decide)]
  have : raw % W64 < W64 := Nat.mod_lt _ (by decide)
  rw [Nat.mul_comm]
  exact Nat.mul_lt_mul_of_pos_left this h

theorem u64Uniform_zero (raw : Nat) : u64Uniform raw 0 = 0 := by simp [u64Uniform]

theorem u16Uniform_lt (raw : Nat) {bound : Nat} (h : 0 < bound) : u16Uniform raw bound < bound := by
  unfold u16Uniform
  rw [Nat.div_lt_iff_lt_mul (by decide)]
  have h1 : raw % 65536 < 65536 := Nat.mod_lt _ (by decide)
  have h2 : bound % 65536 ≤ bound := Nat.mod_le _ _
  calc raw % 65536 * (bound % 65536) ≤ raw % 65536 * bound := Nat.mul_le_mul_left _ h2
    _ < 65536 * bound := Nat.mul_lt_mul_of_pos_right h1 h
    _ = bound * 65536 := Nat.mul_comm _ _

end HM
