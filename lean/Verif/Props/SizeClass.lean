import Verif.SizeClassLemmas
/-
Property theorems C14 (small size classes) and C15 (large size classes).
-/
namespace HM

/-- C14: for every small request the chosen class is the smallest table entry that fits, and the class index
returned is the index of that entry in the table consulted by `free`. -/
theorem c14_class_minimal (g : Cfg) (n : Nat) (h : n ≤ g.maxSlab) :
    (sizeClasses g)[(getSizeInfo n).cls]? = some (getSizeInfo n).size ∧
    n ≤ (getSizeInfo n).size ∧
    ∀ s ∈ sizeClasses g, n ≤ s → (getSizeInfo n).size ≤ s := by
  obtain ⟨ht, hle⟩ := getSizeInfo_table g h
  refine ⟨ht, hle, ?_⟩
  intro s hs hns
  obtain ⟨c, hc⟩ := List.getElem?_of_mem hs
  have hid := getSizeInfo_of_table g hc
  have hsm := table_le_max g hc
  by_cases h0 : n = 0
  · subst h0; simp [getSizeInfo]
  by_cases h128 : n ≤ 128
  · rw [getSizeInfo_le128 (by omega) h128]
    by_cases hs128 : s ≤ 128
    · rw [getSizeInfo_le128 (by omega) hs128] at hid
      have : (s + 15) / 16 * 16 = s := congrArg SizeInfo.size hid
      simp only; omega
    · simp only; omega
  have e61 : (2 : Nat) ^ 61 = 2305843009213693952 := by decide
  have hm : g.maxSlab ≤ 131072 := by rcases maxSlab_cases g with h | h <;> omega
  obtain ⟨j, q, hj5, hj61, q5, q8, h1, h2, h3, hsz, _⟩ := getSizeInfo_norm (n := n) (by omega) (by omega)
  obtain ⟨j', q', hj5', hj61', q5', q8', h1', h2', h3', hsz', _⟩ :=
    getSizeInfo_norm (n := s) (by omega) (by omega)
  rw [hid] at hsz'
  have hs' : s = q' * 2 ^ j' := congrArg SizeInfo.size hsz'
  rw [hsz]; simp only
  -- compare exponents
  rcases Nat.lt_trichotomy j j' with hjj | hjj | hjj
  · have : 2 * 2 ^ j ≤ 2 ^ j' := by
      have : 2 ^ (j + 1) ≤ 2 ^ j' := Nat.pow_le_pow_right (by decide) hjj
      rw [Nat.pow_succ] at this; omega
    have : q * 2 ^ j ≤ 8 * 2 ^ j := Nat.mul_le_mul_right _ q8
    omega
  · subst hjj
    have : q ≤ q' := by
      by_cases hq : q ≤ q'
      · exact hq
      · have : (q' + 1) * 2 ^ j ≤ q * 2 ^ j := Nat.mul_le_mul_right _ (by omega)
        rw [Nat.add_mul] at this; omega
    rw [hs']; exact Nat.mul_le_mul_right _ this
  · have : 2 * 2 ^ j' ≤ 2 ^ j := by
      have : 2 ^ (j' + 1) ≤ 2 ^ j := Nat.pow_le_pow_right (by decide) hjj
      rw [Nat.pow_succ] at this; omega
    have : q' * 2 ^ j' ≤ 8 * 2 ^ j' := Nat.mul_le_mul_right _ q8'
    omega

example : (300 : Nat) ≤ Cfg.default.maxSlab ∧ getSizeInfo 300 = ⟨320, 13⟩ := by decide

/-- C14: the table of small classes is strictly increasing from 0 to the largest small class, so "the smallest entry
that fits" exists for every small request and class indices order like sizes. -/
theorem c14_table_increasing (g : Cfg) :
    (sizeClasses g).Pairwise (· < ·) ∧ (sizeClasses g).head? = some 0 ∧
    (sizeClasses g).getLast? = some g.maxSlab := by
  unfold sizeClasses Cfg.maxSlab
  cases g.extended <;> decide

/-- C14: internal waste is at most 15 bytes up to 128 bytes and less than 20% of the class above that. -/
theorem c14_waste (g : Cfg) (n : Nat) (h : n ≤ g.maxSlab) :
    (n ≤ 128 → (getSizeInfo n).size < n + 16) ∧
    (128 < n → 5 * ((getSizeInfo n).size - n) < (getSizeInfo n).size) := by
  have hm : g.maxSlab ≤ 131072 := by rcases maxSlab_cases g with h | h <;> omega
  have e61 : (2 : Nat) ^ 61 = 2305843009213693952 := by decide
  constructor
  · intro h128
    by_cases h0 : n = 0
    · subst h0; simp [getSizeInfo]
    · rw [getSizeInfo_le128 (by omega) h128]; simp only; omega
  · intro h128
    obtain ⟨j, q, hj5, hj61, q5, q8, h1, h2, h3, hs, _⟩ := getSizeInfo_norm (n := n) h128 (by omega)
    rw [hs]; simp only
    have : 5 * 2 ^ j ≤ q * 2 ^ j := Nat.mul_le_mul_right _ q5
    omega

example : (128 : Nat) < 129 ∧ (getSizeInfo 129).size = 160 := by decide

theorem getSizeInfoAlignFrom_spec (size al : Nat) : ∀ (l : List Nat) (c : Nat) (i : SizeInfo),
    getSizeInfoAlignFrom size al l c = some i →
    c ≤ i.cls ∧ l[i.cls - c]? = some i.size ∧ size ≤ i.size ∧ i.size &&& (sub64 al 1) = 0 ∧
    ∀ k, k < i.cls - c → ∀ s, l[k]? = some s → size ≤ s → s &&& (sub64 al 1) ≠ 0 := by
  intro l
  induction l with
  | nil => intro c i h; simp [getSizeInfoAlignFrom] at h
  | cons a l ih =>
    intro c i h
    unfold getSizeInfoAlignFrom at h
    split at h
    · rename_i hc
      injection h with h; subst h
      simp [hc]
    · rename_i hc
      obtain ⟨h1, h2, h3, h4, h5⟩ := ih _ _ h
      have e : i.cls - c = (i.cls - (c + 1)) + 1 := by omega
      refine ⟨by omega, ?_, h3, h4, ?_⟩
      · rw [e, List.getElem?_cons_succ]; exact h2
      · intro k hk s hs hss
        cases k with
        | zero => simp at hs; subst hs; intro h0; exact hc ⟨hss, h0⟩
        | succ k =>
          rw [List.getElem?_cons_succ] at hs
          exact h5 k (by omega) s hs hss

theorem getSizeInfoAlignFrom_exists (size al : Nat) : ∀ (l : List Nat) (c : Nat),
    (∃ s ∈ l, size ≤ s ∧ s &&& (sub64 al 1) = 0) →
    ∃ i, getSizeInfoAlignFrom size al l c = some i := by
  intro l
  induction l with
  | nil => intro c h; simp at h
  | cons a l ih =>
    intro c ⟨s, hs, h⟩
    unfold getSizeInfoAlignFrom
    split
    · exact ⟨_, rfl⟩
    · rename_i hc
      rcases List.mem_cons.1 hs with rfl | hs
      · exact absurd h hc
      · exact ih _ ⟨s, hs, h⟩

theorem and_mask_eq_zero_iff (s k : Nat) (hk : k < 64) : s &&& (sub64 (2 ^ k) 1) = 0 ↔ 2 ^ k ∣ s := by
  have : (2 : Nat) ^ k < W64 := (Nat.pow_lt_pow_right (by decide) hk : 2 ^ k < 2 ^ 64)
  rw [sub64_of_le this (Nat.two_pow_pos k), Nat.and_two_pow_sub_one_eq_mod]
  exact (Nat.dvd_iff_mod_eq_zero).symm

/-- C14 for aligned requests: for every small size and every power-of-two alignment up to the page size, the lookup
succeeds (the "invalid size for slabs" abort is unreachable) and gives a class that fits, is a multiple of the
alignment and is minimal among those; looking the class size up again gives the same class. -/
theorem c14_aligned_class (g : Cfg) (n k : Nat) (h : n ≤ g.maxSlab) (hk : k ≤ 12) :
    ∃ i, getSizeInfoAlign g n (2 ^ k) = some i ∧ 0 < i.size ∧
      (sizeClasses g)[i.cls]? = some i.size ∧ n ≤ i.size ∧ 2 ^ k ∣ i.size ∧
      getSizeInfo i.size = i ∧
      ∀ s ∈ sizeClasses g, 0 < s → n ≤ s → 2 ^ k ∣ s → i.size ≤ s := by
  have hex : ∃ i, getSizeInfoAlign g n (2 ^ k) = some i := by
    apply getSizeInfoAlignFrom_exists
    refine ⟨g.maxSlab, ?_, h, ?_⟩
    · unfold sizeClasses Cfg.maxSlab; cases g.extended <;> decide
    · rw [and_mask_eq_zero_iff _ _ (by omega)]
      have h12 : (2 : Nat) ^ 12 ∣ g.maxSlab := by
        unfold Cfg.maxSlab; cases g.extended <;> decide
      exact Nat.dvd_trans (Nat.pow_dvd_pow 2 hk) h12
  obtain ⟨i, hi⟩ := hex
  obtain ⟨h1, h2, h3, h4, h5⟩ := getSizeInfoAlignFrom_spec _ _ _ _ _ hi
  have hne : sizeClasses g ≠ [] := by unfold sizeClasses; cases g.extended <;> decide
  have htl : ∀ k s, (sizeClasses g).tail[k]? = some s ↔ (sizeClasses g)[k + 1]? = some s := by
    intro k s; rw [List.getElem?_tail]
  have hcls : (sizeClasses g)[i.cls]? = some i.size := by
    have := (htl _ _).1 h2
    rwa [Nat.sub_add_cancel h1] at this
  obtain ⟨hsorted, hhead, _⟩ := c14_table_increasing g
  have hpos : ∀ c s, (sizeClasses g)[c]? = some s → (1 ≤ c ↔ 0 < s) :=
    fun c s hc => table_forall g (P := fun c s => (1 ≤ c ↔ 0 < s)) (by decide) hc
  refine ⟨i, hi, (hpos _ _ hcls).1 h1, hcls, h3, ?_, getSizeInfo_of_table g hcls, ?_⟩
  · exact (and_mask_eq_zero_iff _ _ (by omega)).1 h4
  · intro s hs hs0 hns hdv
    obtain ⟨c, hc⟩ := List.getElem?_of_mem hs
    have hc1 := (hpos _ _ hc).2 hs0
    by_cases hlt : c < i.cls
    · exfalso
      refine h5 (c - 1) (by omega) s ?_ hns ((and_mask_eq_zero_iff _ _ (by omega)).2 hdv)
      rw [htl, Nat.sub_add_cancel hc1]; exact hc
    · obtain ⟨l1, e1⟩ := List.getElem?_eq_some_iff.1 hcls
      obtain ⟨l2, e2⟩ := List.getElem?_eq_some_iff.1 hc
      rcases Nat.lt_or_ge i.cls c with hl | hl
      · have := List.pairwise_iff_getElem.1 hsorted _ _ l1 l2 hl
        omega
      · have : c = i.cls := by omega
        subst this; omega

example : (100 : Nat) ≤ Cfg.default.maxSlab ∧ getSizeInfoAlign Cfg.default 100 (2 ^ 6) = some ⟨128, 8⟩ := by decide

/-- C15: rounding of large requests. `r = 0` exactly when no representable rounding exists, otherwise `r` is a
multiple of the page size, fits the request and wastes less than a quarter of the request
(with size-class rounding) or less than a page (without). -/
theorem c15_large_rounding (g : Cfg) (n : Nat) (h16 : 16384 < n) (hn : n < 2 ^ 64) :
    (getLargeSizeClass g n = 0 ↔ n > if g.largeClasses then 7 * 2 ^ 61 else 2 ^ 64 - 4096) ∧
    (getLargeSizeClass g n ≠ 0 →
      n ≤ getLargeSizeClass g n ∧ getLargeSizeClass g n < 2 ^ 64 ∧ 4096 ∣ getLargeSizeClass g n ∧
      (g.largeClasses = true → 4 * (getLargeSizeClass g n - n) < n) ∧
      (g.largeClasses = false → getLargeSizeClass g n < n + 4096)) := by
  have e61 : (2 : Nat) ^ 61 = 2305843009213693952 := by decide
  have e64 : (2 : Nat) ^ 64 = 18446744073709551616 := by decide
  rw [e64] at *
  unfold getLargeSizeClass
  cases hl : g.largeClasses
  · simp only [Bool.false_eq_true, if_false]
    rw [pageAlign_eq]
    omega
  · simp only [if_true]
    rw [Nat.max_eq_left (by omega)]
    by_cases hov : 7 * 2 ^ 61 < n
    · rw [getSizeInfo_overflow hov (by omega)]; simp; omega
    · obtain ⟨j, q, hj5, hj61, q5, q8, h1, h2, h3, hs, hw⟩ := getSizeInfo_norm (n := n) (by omega) (by omega)
      rw [hs]; simp only
      have hj12 : 12 ≤ j := by
        by_cases hh : 12 ≤ j
        · exact hh
        · have : 2 ^ j ≤ 2 ^ 11 := Nat.pow_le_pow_right (by decide) (by omega)
          have : q * 2 ^ j ≤ 8 * 2 ^ j := Nat.mul_le_mul_right _ q8
          omega
      have hdv : 4096 ∣ q * 2 ^ j := Nat.dvd_mul_left_of_dvd (Nat.pow_dvd_pow 2 hj12 : 2 ^ 12 ∣ 2 ^ j) q
      refine ⟨by constructor <;> intro <;> omega, ?_⟩
      intro _
      refine ⟨h2, hw, hdv, ?_, by simp⟩
      intro _; omega

example : (16384 : Nat) < 200000 ∧ (200000 : Nat) < 2 ^ 64 ∧
    getLargeSizeClass Cfg.default 200000 = 229376 := by decide

/-- C15: large rounding is idempotent and monotone, so the size recorded for a block is the class of every size that
rounds to it. -/
theorem c15_idempotent (g : Cfg) (n : Nat) (h16 : 16384 < n) (hn : n < 2 ^ 64)
    (hr : getLargeSizeClass g n ≠ 0) :
    getLargeSizeClass g (getLargeSizeClass g n) = getLargeSizeClass g n := by
  have e64 : (2 : Nat) ^ 64 = 18446744073709551616 := by decide
  have e61 : (2 : Nat) ^ 61 = 2305843009213693952 := by decide
  rw [e64] at *
  unfold getLargeSizeClass at *
  cases hl : g.largeClasses
  · simp only [hl, Bool.false_eq_true, if_false] at *
    rw [pageAlign_eq] at *
    rw [pageAlign_eq]
    omega
  · simp only [hl, if_true] at hr ⊢
    rw [Nat.max_eq_left (show PAGE ≤ n by omega)] at hr ⊢
    by_cases hov : 7 * 2 ^ 61 < n
    · exact absurd (getSizeInfo_overflow hov (by omega)) hr
    · obtain ⟨j, q, hj5, hj61, q5, q8, h1, h2, h3, hs, hw⟩ := getSizeInfo_norm (n := n) (by omega) (by omega)
      rw [hs]; simp only
      rw [Nat.max_eq_left (by omega)]
      by_cases hov2 : 7 * 2 ^ 61 < q * 2 ^ j
      · exfalso
        have hD : 0 < 2 ^ j := Nat.two_pow_pos j
        by_cases hh : j ≤ 60
        · have : 2 ^ j ≤ 2 ^ 60 := Nat.pow_le_pow_right (by decide) hh
          have e60 : (2 : Nat) ^ 60 = 1152921504606846976 := by decide
          have : q * 2 ^ j ≤ 8 * 2 ^ j := Nat.mul_le_mul_right _ q8
          omega
        · have : j = 61 := by omega
          subst this
          omega
      obtain ⟨j', q', hj5', hj61', q5', q8', h1', h2', h3', hs', hw'⟩ :=
        getSizeInfo_norm (n := q * 2 ^ j) (by omega) (by omega)
      rw [hs']; simp only
      have hD : 0 < 2 ^ j := Nat.two_pow_pos j
      -- the spacing is the same because 4*2^j < q*2^j ≤ 8*2^j
      have hjj : j' = j := by
        rcases Nat.lt_trichotomy j j' with hx | hx | hx
        · have : 2 ^ (j + 1) ≤ 2 ^ j' := Nat.pow_le_pow_right (by decide) hx
          rw [Nat.pow_succ] at this
          have : q * 2 ^ j ≤ 8 * 2 ^ j := Nat.mul_le_mul_right _ q8
          omega
        · exact hx.symm
        · have : 2 ^ (j' + 1) ≤ 2 ^ j := Nat.pow_le_pow_right (by decide) hx
          rw [Nat.pow_succ] at this
          have : q' * 2 ^ j' ≤ 8 * 2 ^ j' := Nat.mul_le_mul_right _ q8'
          have : 5 * 2 ^ j ≤ q * 2 ^ j := Nat.mul_le_mul_right _ q5
          omega
      subst hjj
      have : q' = q := by
        rcases Nat.lt_trichotomy q q' with hx | hx | hx
        · have : (q + 1) * 2 ^ j' ≤ q' * 2 ^ j' := Nat.mul_le_mul_right _ hx
          rw [Nat.add_mul] at this; omega
        · exact hx.symm
        · have : (q' + 1) * 2 ^ j' ≤ q * 2 ^ j' := Nat.mul_le_mul_right _ hx
          rw [Nat.add_mul] at this; omega
      rw [this]

end HM
