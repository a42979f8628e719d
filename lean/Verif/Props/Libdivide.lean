import Verif.Libdivide
/-
Property theorem C32: division by precomputed reciprocal is exact.
-/
namespace HM

/-- C32 (32 bit): for every non-zero divisor and every numerator. -/
theorem c32_u32 (d n : Nat) (hd : 0 < d) (hd32 : d < 2 ^ 32) (hn : n < 2 ^ 32) :
    libdivideU32Do n (libdivideU32Gen d) = n / d :=
  libdivide_correct (N := 32) (b := 5) rfl (by decide) hd hd32 hn

/-- C32 (64 bit): for every non-zero divisor and every numerator. -/
theorem c32_u64 (d n : Nat) (hd : 0 < d) (hd64 : d < 2 ^ 64) (hn : n < 2 ^ 64) :
    libdivideU64Do n (libdivideU64Gen d) = n / d :=
  libdivide_correct (N := 64) (b := 6) rfl (by decide) hd hd64 hn

example : (0 : Nat) < 7 ∧ (libdivideU32Gen 7) = ⟨613566757, 0x42⟩ ∧ libdivideU32Do 4294967295 ⟨613566757, 0x42⟩ = 613566756 := by
  decide

end HM
