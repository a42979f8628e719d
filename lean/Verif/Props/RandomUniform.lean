import Verif.RandomUniform
/-
Property theorems C30: bounded random numbers.
-/
namespace HM

theorem u16Threshold_zero (bound : Nat) : u16Threshold bound = 0 := by
  unfold u16Threshold
  rw [Int.neg_tmod_self]; rfl

/-- The retry loop of the 16-bit function is dead code: exactly one draw is consumed, whatever it is. -/
theorem c30_u16_single_draw (bound r : Nat) (rest : List Nat) (hb : bound < 2 ^ 16) (hr : r < 2 ^ 16) :
    getRandomU16Uniform bound (r :: rest) = some (r * bound / 2 ^ 16, rest) := by
  have hlt : r * bound < 2 ^ 32 := by
    have : r * bound ≤ (2 ^ 16 - 1) * (2 ^ 16 - 1) := Nat.mul_le_mul (by omega) (by omega)
    omega
  unfold getRandomU16Uniform
  simp only [u16Threshold_zero, Nat.mod_eq_of_lt hlt]
  split
  · cases rest <;> simp [u16Loop]
  · rfl

/-- C30 (range, 16 bit): for every bound and every draw the result is below the bound. -/
theorem c30_u16_in_range (bound r : Nat) (rest : List Nat) (hb : bound < 2 ^ 16) (h0 : 0 < bound) (hr : r < 2 ^ 16) :
    ∃ v, getRandomU16Uniform bound (r :: rest) = some (v, rest) ∧ v < bound := by
  refine ⟨_, c30_u16_single_draw bound r rest hb hr, ?_⟩
  rw [Nat.div_lt_iff_lt_mul (by decide), Nat.mul_comm]
  exact Nat.mul_lt_mul_of_pos_left hr h0

example : getRandomU16Uniform 85 [40000, 7] = some (51, [7]) := by decide

/-- The number of raw draws below `N` that give the value `v`. -/
def drawCount (N : Nat) (accept : Nat → Bool) (value : Nat → Nat) (v : Nat) : Nat :=
  ((Finset.range N).filter (fun x => accept x = true ∧ value x = v)).card

theorem ceil_sub (a b m : Nat) (hb : 0 < b) : (a + m * b + (b - 1)) / b = (a + (b - 1)) / b + m := by
  rw [show a + m * b + (b - 1) = (a + (b - 1)) + m * b by omega, Nat.add_mul_div_right _ _ hb]

theorem le_mul_iff_ceil (a b x : Nat) (hb : 0 < b) : a ≤ x * b ↔ (a + (b - 1)) / b ≤ x := by
  rw [← Nat.lt_succ_iff (m := (a + (b - 1)) / b), Nat.div_lt_iff_lt_mul hb, Nat.succ_mul]; omega

/-- Numbers `x` with `A ≤ x*b < B` form an interval. -/
theorem filter_interval (N A B b : Nat) (hb : 0 < b) (hB : B ≤ N * b) :
    ((Finset.range N).filter (fun x => A ≤ x * b ∧ x * b < B)).card
      = (B + (b - 1)) / b - (A + (b - 1)) / b := by
  have : (Finset.range N).filter (fun x => A ≤ x * b ∧ x * b < B)
      = Finset.Ico ((A + (b - 1)) / b) ((B + (b - 1)) / b) := by
    ext x
    simp only [Finset.mem_filter, Finset.mem_range, Finset.mem_Ico]
    rw [le_mul_iff_ceil A b x hb]
    have h2 : x * b < B ↔ x < (B + (b - 1)) / b := by
      rw [← not_le, le_mul_iff_ceil B b x hb, not_le]
    rw [h2]
    constructor
    · intro h; exact h.2
    · intro h
      refine ⟨?_, h⟩
      have hx := h2.2 h.2
      by_contra hc
      have : N * b ≤ x * b := Nat.mul_le_mul_right _ (by omega)
      omega
  rw [this, Nat.card_Ico]

/-- C30 (64 bit, exact uniformity): a draw is accepted when the loop does not ask for another one. Among the accepted
draws every value below the bound occurs exactly `2^64 / bound` times. -/
theorem c30_u64_uniform (bound v : Nat) (h0 : 0 < bound) (hb : bound < 2 ^ 64) (hv : v < bound) :
    drawCount (2 ^ 64)
      (fun r => (getRandomU64Uniform bound [r]).isSome)
      (fun r => match getRandomU64Uniform bound [r] with | some (x, _) => x | none => 0) v
    = 2 ^ 64 / bound := by
  have hthr : u64Threshold bound = 2 ^ 64 % bound := by
    unfold u64Threshold
    rw [sub64_of_gt hb h0, Nat.zero_add]
    have : (2 : Nat) ^ 64 = (W64 - bound) + bound := by omega
    rw [this, Nat.add_mod_right]
  have htlt : u64Threshold bound < bound := by rw [hthr]; exact Nat.mod_lt _ h0
  have hval : ∀ r, getRandomU64Uniform bound [r] =
      if r * bound % 2 ^ 64 < u64Threshold bound then none else some (r * bound / 2 ^ 64, []) := by
    intro r
    unfold getRandomU64Uniform
    simp only
    split
    · unfold u64Loop; rfl
    · rw [if_neg (by omega)]
  unfold drawCount
  generalize hN : (2 : Nat) ^ 64 = N at *
  have hNpos : 0 < N := by rw [← hN]; decide
  have key : ∀ r, ((getRandomU64Uniform bound [r]).isSome = true ∧
      (match getRandomU64Uniform bound [r] with | some (x, _) => x | none => 0) = v) ↔
      (v * N + N % bound ≤ r * bound ∧ r * bound < (v + 1) * N) := by
    intro r
    rw [hval, hthr]
    have hdm := Nat.div_add_mod (r * bound) N
    have hmlt : r * bound % N < N := Nat.mod_lt _ hNpos
    split
    · rename_i h
      simp only [Option.isSome_none, Bool.false_eq_true, false_and, false_iff, not_and, not_lt]
      intro h1
      by_contra hc
      have hdiv : r * bound / N = v := by
        rw [Nat.div_eq_iff hNpos]
        constructor
        · omega
        · rw [Nat.add_mul] at hc; omega
      rw [hdiv, Nat.mul_comm] at hdm
      omega
    · rename_i h
      simp only [Option.isSome_some, true_and]
      constructor
      · intro hdiv
        rw [hdiv, Nat.mul_comm] at hdm
        rw [Nat.add_mul]; omega
      · rintro ⟨h1, h2⟩
        rw [Nat.div_eq_iff hNpos]
        constructor
        · omega
        · rw [Nat.add_mul] at h2; omega
  have : (Finset.range N).filter (fun x => (getRandomU64Uniform bound [x]).isSome = true ∧
      (match getRandomU64Uniform bound [x] with | some (x, _) => x | none => 0) = v)
      = (Finset.range N).filter (fun x => v * N + N % bound ≤ x * bound ∧ x * bound < (v + 1) * N) := by
    ext x
    simp only [Finset.mem_filter]
    rw [key x]
  rw [this, filter_interval N _ _ bound h0 (by rw [Nat.mul_comm]; exact Nat.mul_le_mul_left _ hv)]
  have hB : (v + 1) * N = (v * N + N % bound) + (N / bound) * bound := by
    have := Nat.div_add_mod N bound
    rw [Nat.mul_comm] at this
    rw [Nat.add_mul]; omega
  rw [hB, ceil_sub _ _ _ h0, Nat.add_sub_cancel_left]

/-- C30 (64 bit): the result is the value of the first accepted draw, so it is below the bound and unaffected by how
many draws were rejected before it. -/
theorem c30_u64_first_accepted (bound : Nat) (h0 : 0 < bound) : ∀ (draws : List Nat) (x : Nat) (rest : List Nat),
    (∀ d ∈ draws, d < 2 ^ 64) → getRandomU64Uniform bound draws = some (x, rest) →
    x < bound ∧ ∃ rejected r, draws = rejected ++ r :: rest ∧
      (∀ d ∈ rejected, d * bound % 2 ^ 64 < u64Threshold bound) ∧
      ¬ r * bound % 2 ^ 64 < u64Threshold bound ∧ x = r * bound / 2 ^ 64 := by
  have htlt : u64Threshold bound < bound := Nat.mod_lt _ h0
  have loop : ∀ (draws : List Nat) (r x : Nat) (rest : List Nat),
      u64Loop bound (u64Threshold bound) (r * bound) draws = some (x, rest) →
      ∃ rejected r', r :: draws = rejected ++ r' :: rest ∧
      (∀ d ∈ rejected, d * bound % 2 ^ 64 < u64Threshold bound) ∧
      ¬ r' * bound % 2 ^ 64 < u64Threshold bound ∧ x = r' * bound / 2 ^ 64 := by
    intro draws
    induction draws with
    | nil =>
      intro r x rest h
      unfold u64Loop at h
      split at h
      · cases h
      · injection h with h; injection h with h1 h2
        exact ⟨[], r, by simp [h2], by simp, by assumption, h1.symm⟩
    | cons d ds ih =>
      intro r x rest h
      unfold u64Loop at h
      split at h
      · rename_i hrej
        obtain ⟨rej, r', he, hr1, hr2, hx⟩ := ih _ _ _ h
        refine ⟨r :: rej, r', by simp [he], ?_, hr2, hx⟩
        intro d' hd'
        rcases List.mem_cons.1 hd' with rfl | hd'
        · exact hrej
        · exact hr1 _ hd'
      · injection h with h; injection h with h1 h2
        exact ⟨[], r, by simp [h2], by simp, by assumption, h1.symm⟩
  intro draws x rest hd h
  have hex : ∃ rejected r, draws = rejected ++ r :: rest ∧
      (∀ d ∈ rejected, d * bound % 2 ^ 64 < u64Threshold bound) ∧
      ¬ r * bound % 2 ^ 64 < u64Threshold bound ∧ x = r * bound / 2 ^ 64 := by
    cases draws with
    | nil => simp [getRandomU64Uniform] at h
    | cons r ds =>
      unfold getRandomU64Uniform at h
      simp only at h
      split at h
      · exact loop ds r x rest h
      · injection h with h; injection h with h1 h2
        exact ⟨[], r, by simp [h2], by simp, by omega, h1.symm⟩
  refine ⟨?_, hex⟩
  obtain ⟨rej, r, he, _, _, hx⟩ := hex
  have hr : r < 2 ^ 64 := hd r (by simp [he])
  rw [hx, Nat.div_lt_iff_lt_mul (by decide), Nat.mul_comm]
  exact Nat.mul_lt_mul_of_pos_left hr h0

example : getRandomU64Uniform 3 [0, 5, 9] = some (0, [9]) := by decide

theorem u16_filter (bound v : Nat) (hb : bound < 2 ^ 16) :
    (Finset.range (2 ^ 16)).filter (fun r => (getRandomU16Uniform bound [r]).isSome = true ∧
      (match getRandomU16Uniform bound [r] with | some (x, _) => x | none => 0) = v) =
    (Finset.range (2 ^ 16)).filter (fun x => v * 2 ^ 16 ≤ x * bound ∧ x * bound < (v + 1) * 2 ^ 16) := by
  apply Finset.filter_congr
  intro x hx
  have hx := Finset.mem_range.1 hx
  rw [c30_u16_single_draw bound x [] hb hx]
  simp only [Option.isSome_some, true_and]
  rw [Nat.div_eq_iff (by decide)]
  omega

/-- C30 (16 bit, what holds): every value is produced by either `⌊65536/bound⌋` or `⌊65536/bound⌋ + 1` draws. Missing
for the full claim: the counts are equal for all values, which is false (`c30_u16_biased`). -/
theorem c30_u16_near_uniform_partial (bound v : Nat) (h0 : 0 < bound) (hb : bound < 2 ^ 16) (hv : v < bound) :
    let cnt := drawCount (2 ^ 16)
      (fun r => (getRandomU16Uniform bound [r]).isSome)
      (fun r => match getRandomU16Uniform bound [r] with | some (x, _) => x | none => 0) v
    2 ^ 16 / bound ≤ cnt ∧ cnt ≤ 2 ^ 16 / bound + 1 := by
  intro cnt
  have hcnt : cnt = ((Finset.range (2 ^ 16)).filter
      (fun x => v * 2 ^ 16 ≤ x * bound ∧ x * bound < (v + 1) * 2 ^ 16)).card := by
    show drawCount _ _ _ _ = _
    unfold drawCount
    exact congrArg Finset.card (u16_filter bound v hb)
  rw [hcnt, filter_interval (2 ^ 16) _ _ bound h0
    (by rw [Nat.mul_comm]; exact Nat.mul_le_mul_left _ hv)]
  have hdm := Nat.div_add_mod (2 ^ 16) bound
  have hm : 2 ^ 16 % bound < bound := Nat.mod_lt _ h0
  rw [Nat.mul_comm] at hdm
  have e1 : (v + 1) * 2 ^ 16 = (v * 2 ^ 16 + 2 ^ 16 % bound) + (2 ^ 16 / bound) * bound := by
    rw [Nat.add_mul]; omega
  rw [e1, ceil_sub _ _ _ h0]
  clear hcnt e1
  generalize 2 ^ 16 / bound = Q at *
  have l1 : (v * 2 ^ 16 + (bound - 1)) / bound ≤ (v * 2 ^ 16 + 2 ^ 16 % bound + (bound - 1)) / bound :=
    Nat.div_le_div_right (by omega)
  have l2 : (v * 2 ^ 16 + 2 ^ 16 % bound + (bound - 1)) / bound ≤ (v * 2 ^ 16 + (bound - 1)) / bound + 1 := by
    rw [← Nat.add_div_right _ h0]
    exact Nat.div_le_div_right (by omega)
  omega

/-- C30 fails for the 16-bit function: with bound 3, value 0 is produced by 21846 draws but value 1 by 21845. The
rejection threshold is always 0 because `-bound % bound` is computed on `int`. -/
theorem c30_u16_biased :
    drawCount (2 ^ 16) (fun r => (getRandomU16Uniform 3 [r]).isSome)
      (fun r => match getRandomU16Uniform 3 [r] with | some (x, _) => x | none => 0) 0 = 21846 ∧
    drawCount (2 ^ 16) (fun r => (getRandomU16Uniform 3 [r]).isSome)
      (fun r => match getRandomU16Uniform 3 [r] with | some (x, _) => x | none => 0) 1 = 21845 := by
  have key : ∀ v, v < 3 → drawCount (2 ^ 16) (fun r => (getRandomU16Uniform 3 [r]).isSome)
      (fun r => match getRandomU16Uniform 3 [r] with | some (x, _) => x | none => 0) v =
      ((v + 1) * 2 ^ 16 + 2) / 3 - (v * 2 ^ 16 + 2) / 3 := by
    intro v hv
    have := filter_interval (2 ^ 16) (v * 2 ^ 16) ((v + 1) * 2 ^ 16) 3 (by decide) (by omega)
    rw [show (3 : Nat) - 1 = 2 from rfl] at this
    rw [← this]
    unfold drawCount
    exact congrArg Finset.card (u16_filter 3 v (by decide))
  constructor
  · rw [key 0 (by decide)]; norm_num
  · rw [key 1 (by decide)]; norm_num

end HM
