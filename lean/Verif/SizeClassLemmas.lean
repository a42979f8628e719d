import Verif.SizeClass
/-
Helper lemmas about size classes: the formula of `get_size_info` agrees with the table.
-/
namespace HM

/-- The four classes of one spacing group: formula and table agree. Checked for the whole (finite) table. -/
theorem table_group_base : ∀ j, j < 12 → 5 ≤ j → ∀ q, q < 9 → 5 ≤ q →
    sizeClassesBase[(j - 4) * 4 + 5 + (q - 5)]? = some (q * 2 ^ j) := by decide

theorem table_group_ext : ∀ j, j < 15 → 5 ≤ j → ∀ q, q < 9 → 5 ≤ q →
    (sizeClassesBase ++ sizeClassesExt)[(j - 4) * 4 + 5 + (q - 5)]? = some (q * 2 ^ j) := by decide

theorem table_small : ∀ q, q < 9 → sizeClassesBase[q]? = some (q * 16) := by decide

theorem table_small_ext : ∀ q, q < 9 → (sizeClassesBase ++ sizeClassesExt)[q]? = some (q * 16) := by decide

theorem maxSlab_cases (g : Cfg) : (g.extended = true ∧ g.maxSlab = 131072) ∨
    (g.extended = false ∧ g.maxSlab = 16384) := by
  unfold Cfg.maxSlab; cases g.extended <;> simp

theorem two_pow_lt_W {j : Nat} (h : j ≤ 61) : 8 * 2 ^ j ≤ W64 := by
  have : 2 ^ j ≤ 2 ^ 61 := Nat.pow_le_pow_right (by decide) h
  have e : (2 : Nat) ^ 61 * 8 = W64 := by decide
  omega

/-- Normal form of `get_size_info` for `128 < n ≤ 7 * 2^61` (no overflow when rounding up). -/
theorem getSizeInfo_norm {n : Nat} (h : 128 < n) (hw : n ≤ 7 * 2 ^ 61) :
    ∃ j q, 5 ≤ j ∧ j ≤ 61 ∧ 5 ≤ q ∧ q ≤ 8 ∧ 4 * 2 ^ j < n ∧ n ≤ q * 2 ^ j ∧ q * 2 ^ j < n + 2 ^ j ∧
      getSizeInfo n = ⟨q * 2 ^ j, (j - 4) * 4 + 5 + (q - 5)⟩ ∧ q * 2 ^ j < W64 := by
  have e61 : (2 : Nat) ^ 61 = 2305843009213693952 := by decide
  obtain ⟨j, hj5, hj61, h1, h2, hs, hc⟩ := getSizeInfo_gt h (by omega)
  have hD : 0 < 2 ^ j := Nat.two_pow_pos j
  obtain ⟨q5, q8, b1, b2⟩ := div_bounds hD h1 h2
  have hjle : 2 ^ j ≤ 2 ^ 61 := Nat.pow_le_pow_right (by decide) hj61
  have hmod : (n + (2 ^ j - 1)) % W64 = n + (2 ^ j - 1) := Nat.mod_eq_of_lt (by omega)
  rw [hmod] at hs hc
  generalize hq : (n + (2 ^ j - 1)) / 2 ^ j = q at *
  have hc' : (getSizeInfo n).cls = (j - 4) * 4 + 5 + (q - 5) := by
    rw [hc, sub64_of_le (by omega) (by omega), sub64_of_le (by omega) (by omega)]
    unfold mul64
    rw [Nat.mod_eq_of_lt (by omega), add64_of_lt (a := (j - 4) * 4) (by omega), add64_of_lt (by omega)]
  refine ⟨j, q, hj5, hj61, q5, q8, h1, b1, b2, ?_, by omega⟩
  rw [← hs, ← hc']

theorem getSizeInfo_overflow {n : Nat} (hw : 7 * 2 ^ 61 < n) (h : n < W64) : (getSizeInfo n).size = 0 := by
  have e61 : (2 : Nat) ^ 61 = 2305843009213693952 := by decide
  obtain ⟨j, hj5, hj61, h1, h2, hs, hc⟩ := getSizeInfo_gt (n := n) (by omega) h
  have hj : j = 61 := by
    by_cases hh : j ≤ 60
    · have : 2 ^ j ≤ 2 ^ 60 := Nat.pow_le_pow_right (by decide) hh
      have e60 : (2 : Nat) ^ 60 = 1152921504606846976 := by decide
      omega
    · omega
  subst hj
  rw [hs, e61]
  omega

/-- `get_size_info` agrees with the table for every small size. -/
theorem getSizeInfo_table (g : Cfg) {n : Nat} (h : n ≤ g.maxSlab) :
    (sizeClasses g)[(getSizeInfo n).cls]? = some (getSizeInfo n).size ∧ n ≤ (getSizeInfo n).size := by
  by_cases h0 : n = 0
  · subst h0
    simp [getSizeInfo, sizeClasses]; split <;> rfl
  by_cases h128 : n ≤ 128
  · rw [getSizeInfo_le128 (by omega) h128]
    have e : (n + 15) / 16 = (n - 1) / 16 + 1 := by omega
    constructor
    · simp only [e, sizeClasses]
      split
      · exact table_small_ext _ (by omega)
      · exact table_small _ (by omega)
    · simp only; omega
  · have hm : g.maxSlab ≤ 131072 := by rcases maxSlab_cases g with h | h <;> omega
    have e61 : (2 : Nat) ^ 61 = 2305843009213693952 := by decide
    obtain ⟨j, q, hj5, hj61, q5, q8, h1, h2, h3, hs, _⟩ := getSizeInfo_norm (n := n) (by omega) (by omega)
    rw [hs]
    refine ⟨?_, h2⟩
    simp only [sizeClasses]
    rcases maxSlab_cases g with ⟨he, hm⟩ | ⟨he, hm⟩
    · rw [if_pos he]
      apply table_group_ext _ _ hj5 _ (by omega) q5
      by_cases hh : j < 15
      · exact hh
      · have : 2 ^ 15 ≤ 2 ^ j := Nat.pow_le_pow_right (by decide) (by omega)
        omega
    · rw [if_neg (by simp [he])]
      apply table_group_base _ _ hj5 _ (by omega) q5
      by_cases hh : j < 12
      · exact hh
      · have : 2 ^ 12 ≤ 2 ^ j := Nat.pow_le_pow_right (by decide) (by omega)
        omega

/-- A property of all entries of the table can be checked by computation. -/
theorem table_forall {P : Nat → Nat → Prop} [∀ c s, Decidable (P c s)] (g : Cfg)
    (h : ∀ c : Fin (sizeClassesBase ++ sizeClassesExt).length,
      P c ((sizeClassesBase ++ sizeClassesExt)[c])) {c s : Nat}
    (hc : (sizeClasses g)[c]? = some s) : P c s := by
  have : (sizeClassesBase ++ sizeClassesExt)[c]? = some s := by
    unfold sizeClasses at hc
    split at hc
    · exact hc
    · rw [List.getElem?_append_left (by
        obtain ⟨h, _⟩ := List.getElem?_eq_some_iff.1 hc; exact h)]
      exact hc
  obtain ⟨hl, rfl⟩ := List.getElem?_eq_some_iff.1 this
  exact h ⟨c, hl⟩

/-- `get_size_info` is the identity on table entries. -/
theorem getSizeInfo_of_table (g : Cfg) {c s : Nat} (h : (sizeClasses g)[c]? = some s) :
    getSizeInfo s = ⟨s, c⟩ :=
  table_forall g (P := fun c s => getSizeInfo s = ⟨s, c⟩) (by decide +kernel) h

theorem table_le_max (g : Cfg) {c s : Nat} (h : (sizeClasses g)[c]? = some s) : s ≤ g.maxSlab := by
  unfold sizeClasses at h
  have hm : s ∈ (if g.extended then sizeClassesBase ++ sizeClassesExt else sizeClassesBase) :=
    List.mem_of_getElem? h
  rcases maxSlab_cases g with ⟨he, hx⟩ | ⟨he, hx⟩
  · rw [he, if_pos rfl] at hm; rw [hx]
    exact (show ∀ s ∈ sizeClassesBase ++ sizeClassesExt, s ≤ 131072 by decide) s hm
  · rw [he] at hm; rw [hx]
    exact (show ∀ s ∈ sizeClassesBase, s ≤ 16384 by decide) s (by simpa using hm)

end HM
