import Verif.Util
/-
third_party/libdivide.h: unsigned division by precomputed reciprocals, for word width `N` (32 or 64).
-/
namespace HM

/-- third_party/libdivide.h:150-170 `struct libdivide_u32_t` / `struct libdivide_u64_t`. -/
structure Divisor where
  magic : Nat
  more : Nat
  deriving Repr, DecidableEq

/-- third_party/libdivide.h:850-903 / 1008-1063 `libdivide_internal_u{32,64}_gen` with `branchfree = 0`, for
`d ≠ 0` (the code aborts on `d = 0`, :852-854 / :1010-1012). `floor_log_2_d` is `N - 1 - clz(d)`. The double-word
division (:453-466, :469-564) is taken as exact, as the x86-64 `div` instruction computes it. -/
def libdivideGen (N d : Nat) : Divisor :=
  let l := Nat.log2 d
  if d &&& (d - 1) = 0 then ⟨0, l⟩
  else
    let proposedM := 2 ^ (N + l) / d
    let rem := 2 ^ (N + l) % d
    let e := d - rem
    if e < 2 ^ l then ⟨(1 + proposedM) % 2 ^ N, l⟩
    else
      let proposedM := (proposedM + proposedM) % 2 ^ N
      let twiceRem := (rem + rem) % 2 ^ N
      let proposedM := if twiceRem ≥ d ∨ twiceRem < rem then (proposedM + 1) % 2 ^ N else proposedM
      ⟨(1 + proposedM) % 2 ^ N, l ||| 0x40⟩

/-- third_party/libdivide.h:915-930 / 1075-1090 `libdivide_u{32,64}_do`; `mask` is `LIBDIVIDE_{32,64}_SHIFT_MASK`.
The high multiplication (:303-307, :316-340) is the exact high word. -/
def libdivideDo (N mask numer : Nat) (denom : Divisor) : Nat :=
  if denom.magic = 0 then numer / 2 ^ denom.more
  else
    let q := denom.magic * numer / 2 ^ N
    if denom.more &&& 0x40 ≠ 0 then
      let t := ((((numer + 2 ^ N - q) % 2 ^ N) / 2) + q) % 2 ^ N
      t / 2 ^ (denom.more &&& mask)
    else q / 2 ^ denom.more

/-- `libdivide_u32_gen`, `libdivide_u32_do`. -/
def libdivideU32Gen (d : Nat) : Divisor := libdivideGen 32 d
def libdivideU32Do (n : Nat) (x : Divisor) : Nat := libdivideDo 32 0x1F n x
/-- `libdivide_u64_gen`, `libdivide_u64_do`. -/
def libdivideU64Gen (d : Nat) : Divisor := libdivideGen 64 d
def libdivideU64Do (n : Nat) (x : Divisor) : Nat := libdivideDo 64 0x3F n x

/-! ### Helper lemmas -/

/-- Division by a rounded-up reciprocal. -/
theorem mul_recip_div {P d m e n : Nat} (hd : 0 < d) (hm : m * d = 2 ^ P + e) (he : e * n < 2 ^ P) :
    m * n / 2 ^ P = n / d := by
  have hP : 0 < 2 ^ P := Nat.two_pow_pos P
  rw [Nat.div_eq_iff hP]
  have hn := Nat.div_add_mod n d
  have hr : n % d < d := Nat.mod_lt _ hd
  generalize hq : n / d = q at *
  generalize hrr : n % d = r at *
  have key : m * n * d = 2 ^ P * n + e * n := by
    calc m * n * d = (m * d) * n := by ring
      _ = (2 ^ P + e) * n := by rw [hm]
      _ = _ := by ring
  constructor
  · -- q * 2^P ≤ m*n
    have : q * 2 ^ P * d ≤ m * n * d := by
      rw [key]
      calc q * 2 ^ P * d = 2 ^ P * (d * q) := by ring
        _ ≤ 2 ^ P * n := Nat.mul_le_mul_left _ (by omega)
        _ ≤ _ := Nat.le_add_right _ _
    exact Nat.le_of_mul_le_mul_right this hd
  · have : m * n * d < (q * 2 ^ P + 2 ^ P) * d := by
      rw [key]
      have h1 : n + 1 ≤ d * q + d := by omega
      have h2 : 2 ^ P * (n + 1) ≤ 2 ^ P * (d * q + d) := Nat.mul_le_mul_left _ h1
      have h3 : (q * 2 ^ P + 2 ^ P) * d = 2 ^ P * (d * q + d) := by ring
      rw [h3]
      have h4 : 2 ^ P * (n + 1) = 2 ^ P * n + 2 ^ P := by ring
      omega
    have := Nat.lt_of_mul_lt_mul_right this
    omega

theorem and_pred_ne_zero {d : Nat} (hd : 0 < d) (h : d ≠ 2 ^ Nat.log2 d) : d &&& (d - 1) ≠ 0 := by
  obtain ⟨h1, h2⟩ := log2_bounds (x := d) (by omega)
  intro hz
  have hb1 : d.testBit (Nat.log2 d) = true := by
    rw [Nat.testBit_eq_decide_div_mod_eq, decide_eq_true_iff]
    have : d / 2 ^ Nat.log2 d = 1 := by
      rw [Nat.div_eq_iff (Nat.two_pow_pos _)]; rw [Nat.pow_succ] at h2; omega
    omega
  have hb2 : (d - 1).testBit (Nat.log2 d) = true := by
    rw [Nat.testBit_eq_decide_div_mod_eq, decide_eq_true_iff]
    have : (d - 1) / 2 ^ Nat.log2 d = 1 := by
      rw [Nat.div_eq_iff (Nat.two_pow_pos _)]; rw [Nat.pow_succ] at h2; omega
    omega
  have := congrArg (fun x => x.testBit (Nat.log2 d)) hz
  simp only [Nat.testBit_and, hb1, hb2, Nat.zero_testBit] at this
  cases this

theorem and_pred_pow (l : Nat) : 2 ^ l &&& (2 ^ l - 1) = 0 := by
  rw [Nat.and_two_pow_sub_one_eq_mod, Nat.mod_self]

theorem or_marker {l b : Nat} (hb : b ≤ 6) (h : l < 2 ^ b) :
    (l ||| 0x40) &&& 0x40 ≠ 0 ∧ (l ||| 0x40) &&& (2 ^ b - 1) = l := by
  constructor
  · intro hz
    have := congrArg (fun x => x.testBit 6) hz
    simp only [Nat.testBit_and, Nat.testBit_or, Nat.zero_testBit,
      show Nat.testBit 0x40 6 = true from rfl, Bool.or_true, Bool.and_true] at this
    cases this
  · rw [Nat.and_two_pow_sub_one_eq_mod]
    apply Nat.eq_of_testBit_eq
    intro i
    rw [Nat.testBit_mod_two_pow, Nat.testBit_or]
    by_cases hi : i < b
    · have : Nat.testBit 0x40 i = false := by
        have : i < 6 := by omega
        interval_cases i <;> rfl
      simp [hi, this]
    · have : l.testBit i = false :=
        Nat.testBit_lt_two_pow (Nat.lt_of_lt_of_le h (Nat.pow_le_pow_right (by decide) (by omega)))
      simp [hi, this]

theorem and_marker_lt {l : Nat} (h : l < 2 ^ 6) : l &&& 0x40 = 0 := by
  apply Nat.eq_of_testBit_eq
  intro i
  rw [Nat.testBit_and, Nat.zero_testBit]
  by_cases hi : i < 6
  · have : Nat.testBit 0x40 i = false := by interval_cases i <;> rfl
    simp [this]
  · have : l.testBit i = false :=
      Nat.testBit_lt_two_pow (Nat.lt_of_lt_of_le h (Nat.pow_le_pow_right (by decide) (by omega)))
    simp [this]

/-- Reciprocal division is exact, for any word width `N = 2^b ≤ 64`. -/
theorem libdivide_correct {N b d n : Nat} (hN : N = 2 ^ b) (hb : b ≤ 6) (hd : 0 < d) (hdN : d < 2 ^ N)
    (hn : n < 2 ^ N) : libdivideDo N (2 ^ b - 1) n (libdivideGen N d) = n / d := by
  obtain ⟨h1, h2⟩ := log2_bounds (x := d) (by omega)
  have hlN : Nat.log2 d < N := (Nat.log2_lt (by omega)).2 hdN
  unfold libdivideGen
  simp only
  generalize hl : Nat.log2 d = l at *
  have hl64 : l < 2 ^ b := by omega
  have hl6 : l < 2 ^ 6 := Nat.lt_of_lt_of_le hl64 (Nat.pow_le_pow_right (by decide) hb)
  split
  · rename_i hz
    have hpow : d = 2 ^ l := by
      by_contra hc
      exact and_pred_ne_zero hd (by rw [hl]; exact hc) hz
    unfold libdivideDo
    simp only [if_true]
    rw [← hpow]
  · rename_i hz
    have hlt : 2 ^ l < d := by
      rcases Nat.lt_or_ge (2 ^ l) d with h | h
      · exact h
      · have : d = 2 ^ l := by omega
        rw [this] at hz; exact absurd (and_pred_pow l) hz
    have hpl : 0 < 2 ^ l := Nat.two_pow_pos l
    have hpN : 0 < 2 ^ N := Nat.two_pow_pos N
    have hdm := Nat.div_add_mod (2 ^ (N + l)) d
    have hrem : 2 ^ (N + l) % d < d := Nat.mod_lt _ hd
    have hsplit : 2 ^ (N + l) = 2 ^ N * 2 ^ l := Nat.pow_add _ _ _
    have h2l : 2 ^ (l + 1) = 2 * 2 ^ l := by rw [Nat.pow_succ]; ring
    -- bounds on the quotient
    have hpm_lt : 2 ^ (N + l) / d < 2 ^ N := by
      rw [Nat.div_lt_iff_lt_mul hd, hsplit]
      exact Nat.mul_lt_mul_of_pos_left hlt hpN
    generalize hpm : 2 ^ (N + l) / d = pm at *
    generalize hrm : 2 ^ (N + l) % d = rem at *
    split
    · rename_i he
      -- single power: magic = 1 + pm
      have hmagic_lt : 1 + pm < 2 ^ N := by
        -- (pm + 1) * d = 2^(N+l) + e < 2^(N+l) + 2^l ≤ ... < 2^N * d
        by_contra hc
        have hpm1 : pm + 1 = 2 ^ N := by omega
        have e1 : d * (pm + 1) = 2 ^ N * 2 ^ l + (d - rem) := by
          rw [Nat.mul_add, Nat.mul_one]; omega
        rw [hpm1] at e1
        have e2 : 2 ^ N * 2 ^ l + 2 ^ N ≤ d * 2 ^ N := by
          calc 2 ^ N * 2 ^ l + 2 ^ N = (2 ^ l + 1) * 2 ^ N := by ring
            _ ≤ d * 2 ^ N := Nat.mul_le_mul_right _ (by omega)
        have e3 : 2 ^ l < 2 ^ N := Nat.pow_lt_pow_right (by decide) hlN
        omega
      rw [Nat.mod_eq_of_lt hmagic_lt]
      unfold libdivideDo
      simp only
      rw [if_neg (by omega), and_marker_lt hl6, if_neg (by simp)]
      rw [Nat.div_div_eq_div_mul, ← Nat.pow_add]
      apply mul_recip_div hd (e := d - rem)
      · have : (1 + pm) * d = d * pm + d := by ring
        omega
      · calc (d - rem) * n ≤ (d - rem) * 2 ^ N := Nat.mul_le_mul_left _ (by omega)
          _ < 2 ^ l * 2 ^ N := Nat.mul_lt_mul_of_pos_right he hpN
          _ = 2 ^ (N + l) := by rw [hsplit]; ring
    · rename_i he
      -- general case: m = ⌊2^(N+l+1)/d⌋ + 1 has N+1 bits, magic = m - 2^N
      -- double the quotient
      have hrem2 : rem < 2 ^ N := by omega
      obtain ⟨c, hc1, hcond, hcr, hcr2⟩ : ∃ c, c ≤ 1 ∧
          ((if (rem + rem) % 2 ^ N ≥ d ∨ (rem + rem) % 2 ^ N < rem then ((pm + pm) % 2 ^ N + 1) % 2 ^ N
            else (pm + pm) % 2 ^ N) = (pm + pm + c) % 2 ^ N) ∧ c * d ≤ 2 * rem ∧ 2 * rem < c * d + d := by
        by_cases hov : rem + rem < 2 ^ N
        · rw [Nat.mod_eq_of_lt hov]
          by_cases hge : rem + rem ≥ d
          · refine ⟨1, by omega, ?_, by omega, by omega⟩
            rw [if_pos (Or.inl hge), Nat.mod_add_mod]
          · refine ⟨0, by omega, ?_, by omega, by omega⟩
            rw [if_neg (by omega)]; simp
        · have e : (rem + rem) % 2 ^ N = rem + rem - 2 ^ N := by
            rw [Nat.mod_eq_sub_mod (by omega), Nat.mod_eq_of_lt (by omega)]
          refine ⟨1, by omega, ?_, by omega, by omega⟩
          rw [if_pos (Or.inr (by omega)), Nat.mod_add_mod]
      rw [hcond]
      -- m := pm + pm + c + 1
      have hm : (pm + pm + c + 1) * d = 2 ^ (N + (l + 1)) + (d + c * d - 2 * rem) := by
        have e1 : (pm + pm + c + 1) * d = 2 * (d * pm) + c * d + d := by ring
        have e2 : 2 ^ (N + (l + 1)) = 2 * 2 ^ (N + l) := by
          rw [← Nat.add_assoc, Nat.pow_succ]; ring
        rw [e1, e2]; omega
      have hm_lo : 2 ^ N + 1 ≤ pm + pm + c + 1 := by
        by_contra hcon
        have h3 : (pm + pm + c + 1) * d ≤ 2 ^ N * d := Nat.mul_le_mul_right _ (by omega)
        rw [hm] at h3
        have h4 : 2 ^ N * d < 2 ^ N * 2 ^ (l + 1) := Nat.mul_lt_mul_of_pos_left h2 hpN
        rw [← Nat.pow_add] at h4
        omega
      have hm_hi : pm + pm + c + 1 < 2 * 2 ^ N := by
        by_contra hcon
        have h3 : 2 * 2 ^ N * d ≤ (pm + pm + c + 1) * d := Nat.mul_le_mul_right _ (by omega)
        rw [hm] at h3
        have h4 : 2 * 2 ^ N * (2 ^ l + 1) ≤ 2 * 2 ^ N * d := Nat.mul_le_mul_left _ (by omega)
        have h5 : 2 * 2 ^ N * (2 ^ l + 1) = 2 ^ (N + (l + 1)) + 2 * 2 ^ N := by
          rw [Nat.pow_add, h2l]; ring
        have hcd : c * d ≤ d := by
          calc c * d ≤ 1 * d := Nat.mul_le_mul_right _ hc1
            _ = d := Nat.one_mul d
        omega
      have hmagic : (1 + (pm + pm + c) % 2 ^ N) % 2 ^ N = pm + pm + c + 1 - 2 ^ N := by
        rw [Nat.add_mod_mod, show 1 + (pm + pm + c) = (pm + pm + c + 1 - 2 ^ N) + 2 ^ N by omega,
          Nat.add_mod_right, Nat.mod_eq_of_lt (by omega)]
      rw [hmagic]
      generalize hmm : pm + pm + c + 1 = m at *
      obtain ⟨hmk1, hmk2⟩ := or_marker hb hl64
      unfold libdivideDo
      simp only
      rw [if_neg (by omega), if_pos hmk1, hmk2]
      generalize hq : (m - 2 ^ N) * n / 2 ^ N = q at *
      have hqn : q ≤ n := by
        rw [← hq]
        apply Nat.div_le_of_le_mul
        exact Nat.mul_le_mul_right _ (by omega)
      have ht1 : (n + 2 ^ N - q) % 2 ^ N = n - q := by
        rw [show n + 2 ^ N - q = (n - q) + 2 ^ N by omega, Nat.add_mod_right, Nat.mod_eq_of_lt (by omega)]
      rw [ht1, Nat.mod_eq_of_lt (by omega)]
      have ht2 : (n - q) / 2 + q = (n + q) / 2 := by omega
      have hnq : n + q = m * n / 2 ^ N := by
        rw [← hq]
        have : m * n = (m - 2 ^ N) * n + n * 2 ^ N := by
          have hx : m = (m - 2 ^ N) + 2 ^ N := by omega
          calc m * n = ((m - 2 ^ N) + 2 ^ N) * n := by rw [← hx]
            _ = _ := by ring
        rw [this, Nat.add_mul_div_right _ _ hpN, Nat.add_comm]
      rw [ht2, hnq, Nat.div_div_eq_div_mul, Nat.div_div_eq_div_mul]
      have : 2 ^ N * (2 * 2 ^ l) = 2 ^ (N + (l + 1)) := by rw [Nat.pow_add, h2l]
      rw [this]
      apply mul_recip_div hd hm
      have hcd : c * d ≤ d := by
        calc c * d ≤ 1 * d := Nat.mul_le_mul_right _ hc1
          _ = d := Nat.one_mul d
      calc (d + c * d - 2 * rem) * n ≤ d * n := Nat.mul_le_mul_right _ (by omega)
        _ ≤ d * 2 ^ N := Nat.mul_le_mul_left _ (by omega)
        _ < 2 ^ (l + 1) * 2 ^ N := Nat.mul_lt_mul_of_pos_right h2 hpN
        _ = 2 ^ (N + (l + 1)) := by rw [Nat.pow_add 2 N]; ring

end HM
