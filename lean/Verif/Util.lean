import Mathlib.Tactic.Common
import Mathlib.Tactic.Ring
import Mathlib.Tactic.Linarith
import Mathlib.Tactic.IntervalCases
/-
Machine arithmetic helpers (util.h, pages.h).

C `size_t`/`u64` values are natural numbers below `2^64`; every operation that can wrap is written with
the explicit wrapping operations below.
-/
namespace HM

/-- Number of values of a C `u64`/`size_t`. -/
notation "W64" => (18446744073709551616 : Nat)

/-- `a + b` on `size_t` (wraps). -/
def add64 (a b : Nat) : Nat := (a + b) % W64
/-- `a - b` on `size_t` (wraps). -/
def sub64 (a b : Nat) : Nat := (a + (W64 - b % W64)) % W64
/-- `a * b` on `size_t` (wraps). -/
def mul64 (a b : Nat) : Nat := (a * b) % W64
/-- `a << k` on `size_t` (wraps). -/
def shl64 (a k : Nat) : Nat := (a * 2 ^ k) % W64
/-- `~a` on `size_t`. -/
def not64 (a : Nat) : Nat := W64 - 1 - a % W64

/-- pages.h:10-13 `PAGE_SIZE`. -/
notation "PAGE" => (4096 : Nat)

/-- util.h:46-48 `clz64` (`__builtin_clzll`, argument non-zero). -/
def clz64 (x : Nat) : Nat := 63 - Nat.log2 x

/-- util.h:51-53 `log2u64` (argument non-zero). -/
def log2u64 (x : Nat) : Nat := 64 - clz64 x - 1

/-- util.h:55-58 `align`. -/
def align (size al : Nat) : Nat :=
  let mask := sub64 al 1
  (add64 size mask) &&& (not64 mask)

/-- pages.h:19-21 `page_align`. -/
def pageAlign (size : Nat) : Nat := align size PAGE

/-- pages.h:23-30 `hash_page`. -/
def hashPage (p : Nat) : Nat :=
  let u := p / 2 ^ 12
  let sum := u
  let sum := add64 (sub64 (shl64 sum 7) sum) (u / 2 ^ 16)
  let sum := add64 (sub64 (shl64 sum 7) sum) (u / 2 ^ 32)
  let sum := add64 (sub64 (shl64 sum 7) sum) (u / 2 ^ 48)
  sum

/-! ### Helper lemmas -/

theorem add64_lt (a b : Nat) : add64 a b < W64 := Nat.mod_lt _ (by decide)
theorem sub64_lt (a b : Nat) : sub64 a b < W64 := Nat.mod_lt _ (by decide)
theorem mul64_lt (a b : Nat) : mul64 a b < W64 := Nat.mod_lt _ (by decide)

theorem add64_of_lt {a b : Nat} (h : a + b < W64) : add64 a b = a + b := Nat.mod_eq_of_lt h

theorem sub64_of_le {a b : Nat} (ha : a < W64) (h : b ≤ a) : sub64 a b = a - b := by
  unfold sub64
  have hb : b % W64 = b := Nat.mod_eq_of_lt (by omega)
  rw [hb]
  have : a + (W64 - b) = (a - b) + W64 := by omega
  rw [this, Nat.add_mod_right, Nat.mod_eq_of_lt (by omega)]

theorem sub64_of_gt {a b : Nat} (hb : b < W64) (h : a < b) : sub64 a b = a + W64 - b := by
  unfold sub64
  rw [Nat.mod_eq_of_lt hb, Nat.mod_eq_of_lt (by omega)]
  omega

theorem and_not_mask (x k : Nat) (hx : x < 2 ^ 64) (hk : k ≤ 64) :
    x &&& (2 ^ 64 - 1 - (2 ^ k - 1)) = x / 2 ^ k * 2 ^ k := by
  apply Nat.eq_of_testBit_eq
  intro i
  have hp : 2 ^ k - 1 < 2 ^ 64 := by
    have := Nat.pow_le_pow_right (show 0 < 2 by decide) hk
    have := Nat.two_pow_pos k
    omega
  rw [Nat.testBit_and, ← Nat.shiftLeft_eq, Nat.testBit_shiftLeft,
    Nat.testBit_div_two_pow]
  have h2 : 2 ^ 64 - 1 - (2 ^ k - 1) = 2 ^ 64 - ((2 ^ k - 1) + 1) := by omega
  rw [h2, Nat.testBit_two_pow_sub_succ hp, Nat.testBit_two_pow_sub_one]
  by_cases h : k ≤ i
  · have : ¬ (i < k) := by omega
    by_cases h64 : i < 64
    · simp [h, this, h64]
    · have : x.testBit i = false := by
        apply Nat.testBit_lt_two_pow
        exact Nat.lt_of_lt_of_le hx (Nat.pow_le_pow_right (by decide) (by omega))
      simp [h, h64, this]
  · have : i < k := by omega
    simp [h, this]

/-- Rounding to a power of two, including the wrap at the top of the address space. -/
theorem align_eq (size k : Nat) (hk : k < 64) :
    align size (2 ^ k) = (size + (2 ^ k - 1)) % W64 / 2 ^ k * 2 ^ k := by
  have h1 : 2 ^ k < W64 := by
    have : 2 ^ k < 2 ^ 64 := Nat.pow_lt_pow_right (by decide) hk
    exact this
  have h0 : 1 ≤ 2 ^ k := Nat.two_pow_pos k
  unfold align
  simp only [sub64_of_le h1 h0, not64]
  rw [Nat.mod_eq_of_lt (show 2 ^ k - 1 < W64 by omega)]
  exact and_not_mask _ k (Nat.mod_lt _ (by decide)) (by omega)

theorem align_of_lt (size k : Nat) (hk : k < 64) (h : size + (2 ^ k - 1) < W64) :
    align size (2 ^ k) = (size + (2 ^ k - 1)) / 2 ^ k * 2 ^ k := by
  rw [align_eq _ _ hk, Nat.mod_eq_of_lt h]

theorem pageAlign_eq (size : Nat) : pageAlign size = (size + 4095) % W64 / 4096 * 4096 :=
  align_eq size 12 (by decide)

theorem log2u64_eq {x : Nat} (h0 : x ≠ 0) (h : x < W64) : log2u64 x = Nat.log2 x := by
  have : Nat.log2 x < 64 := (Nat.log2_lt h0).2 h
  unfold log2u64 clz64; omega

theorem log2_bounds {x : Nat} (h0 : x ≠ 0) : 2 ^ Nat.log2 x ≤ x ∧ x < 2 ^ (Nat.log2 x + 1) :=
  ⟨Nat.log2_self_le h0, Nat.lt_log2_self⟩

theorem hashPage_lt (p : Nat) : hashPage p < W64 := add64_lt _ _

end HM
