import Verif.Bitmap
/-
Property theorem C33: free-slot search.
-/
namespace HM

theorem getMask_bit (n k : Nat) (hk : k < 64) : (getMask n).getLsbD k = decide (n ≤ k) := by
  unfold getMask
  split
  · rw [BitVec.getLsbD_shiftLeft, BitVec.getLsbD_allOnes]
    by_cases h : k < n
    · simp [h, hk]
    · have : k - n < 64 := by omega
      have h' : n ≤ k := by omega
      simp [h, hk, this, h']
  · have : ¬ n ≤ k := by omega
    simp [this]

theorem split_bit (n k : Nat) (hk : k < 64) :
    (~~~(BitVec.allOnes 64 <<< n)).getLsbD k = decide (k < n) := by
  rw [BitVec.getLsbD_not, BitVec.getLsbD_shiftLeft, BitVec.getLsbD_allOnes]
  by_cases h : k < n
  · simp [h, hk]
  · have : k - n < 64 := by omega
    simp [h, hk, this]

/-- The word examined by the loop at index `i`: bits of slots past the end of the slab are set. -/
theorem tail_bit {slots i : Nat} (hi : i ≤ (slots - 1) / 64) (m : BitVec 64)
    {k : Nat} (hk : k < 64) :
    (maskTail slots i m).getLsbD k = (m.getLsbD k || decide (slots ≤ i * 64 + k)) := by
  unfold maskTail
  split
  · rename_i h
    rw [BitVec.getLsbD_or, getMask_bit _ _ hk]
    congr 1
    rw [decide_eq_decide]; omega
  · rename_i h
    have : ¬ slots ≤ i * 64 + k := by omega
    simp [this]

theorem tailLinear_bit {slots i : Nat} (hi : i ≤ (slots - 1) / 64) (hs : 1 ≤ slots) (m : BitVec 64)
    {k : Nat} (hk : k < 64) :
    (maskTailLinear slots i m).getLsbD k = (m.getLsbD k || decide (slots ≤ i * 64 + k)) := by
  unfold maskTailLinear
  split
  · rename_i h
    rw [BitVec.getLsbD_or, getMask_bit _ _ hk]
    congr 1
    rw [decide_eq_decide]; omega
  · rename_i h
    have : ¬ slots ≤ i * 64 + k := by omega
    simp [this]

theorem not_allOnes_of_bit {m : BitVec 64} {k : Nat} (hk : k < 64) (h : m.getLsbD k = false) :
    m ≠ BitVec.allOnes 64 := by
  intro e; rw [e, BitVec.getLsbD_allOnes] at h; simp [hk] at h

/-- One pass: whatever the loop returns is a clear bit of the slab, provided that the masked word only adds bits. -/
theorem freeSlotLoop_sound {slots : Nat} (bm : Bitmap) : ∀ fuel i m s,
    i ≤ (slots - 1) / 64 →
    (∀ k, k < 64 → m.getLsbD k = false → (bm i).getLsbD k = false) →
    freeSlotLoop slots bm fuel i m = some s → s < slots ∧ bm.bit s = false := by
  intro fuel
  induction fuel with
  | zero => intro i m s _ _ h; simp [freeSlotLoop] at h
  | succ fuel ih =>
    intro i m s hi hm h
    unfold freeSlotLoop at h
    simp only at h
    split at h
    · rename_i hne
      injection h with h
      obtain ⟨h1, h2, h3, _⟩ := ffz64_spec hne
      rw [tail_bit hi m h2] at h3
      simp only [Bool.or_eq_false_iff, decide_eq_false_iff_not] at h3
      subst h
      refine ⟨by omega, ?_⟩
      have := hm _ h2 h3.1
      unfold Bitmap.bit
      generalize ffz64 _ - 1 = t at *
      rw [show (t + i * 64) / 64 = i by omega, show (t + i * 64) % 64 = t by omega]
      exact this
    · exact ih _ _ _ (by split <;> omega) (fun _ _ h => h) h

/-- A word with a clear slot bit stops the loop. -/
theorem freeSlotLoop_stop {slots : Nat} (bm : Bitmap) (fuel i : Nat) (m : BitVec 64)
    (hi : i ≤ (slots - 1) / 64) {k : Nat} (hk : k < 64) (hks : i * 64 + k < slots)
    (h : m.getLsbD k = false) : (freeSlotLoop slots bm (fuel + 1) i m).isSome := by
  unfold freeSlotLoop
  simp only
  rw [if_pos]
  · rfl
  · apply not_allOnes_of_bit hk
    rw [tail_bit hi m hk, h]
    simp; omega

/-- Starting at word `i` with unmasked words, the loop finds a clear slot in word `i + d` after `d` steps (no wrap). -/
theorem freeSlotLoop_reach {slots : Nat} (bm : Bitmap) {s : Nat} (hs : s < slots) (hb : bm.bit s = false) :
    ∀ d fuel i, i + d = s / 64 → d < fuel → (freeSlotLoop slots bm fuel i (bm i)).isSome := by
  intro d
  induction d with
  | zero =>
    intro fuel i hi hf
    obtain ⟨fuel, rfl⟩ := Nat.exists_eq_add_of_lt hf
    have := freeSlotLoop_stop (slots := slots) bm (0 + fuel) i (bm i) (by omega) (k := s % 64)
      (Nat.mod_lt _ (by decide)) (by omega) (by unfold Bitmap.bit at hb; rw [show i = s / 64 by omega]; exact hb)
    exact this
  | succ d ih =>
    intro fuel i hi hf
    cases fuel with
    | zero => omega
    | succ fuel =>
      unfold freeSlotLoop
      simp only
      split
      · rfl
      · rw [if_neg (by omega)]
        exact ih fuel (i + 1) (by omega) (by omega)

/-- With unmasked words, the loop finds a clear slot from any start word, wrapping if needed. -/
theorem freeSlotLoop_total {slots : Nat} (bm : Bitmap) {s : Nat} (hs : s < slots) (hb : bm.bit s = false) :
    ∀ d fuel i, i + d = (slots - 1) / 64 → d + 1 + s / 64 < fuel →
      (freeSlotLoop slots bm fuel i (bm i)).isSome := by
  intro d
  induction d with
  | zero =>
    intro fuel i hi hf
    cases fuel with
    | zero => omega
    | succ fuel =>
      unfold freeSlotLoop
      simp only
      split
      · rfl
      · rw [if_pos (by omega)]
        exact freeSlotLoop_reach bm hs hb (s / 64) fuel 0 (by omega) (by omega)
  | succ d ih =>
    intro fuel i hi hf
    cases fuel with
    | zero => omega
    | succ fuel =>
      unfold freeSlotLoop
      simp only
      split
      · rfl
      · rw [if_neg (by omega)]
        exact ih fuel (i + 1) (by omega) (by omega)

theorem freeSlotLoop_mono (slots : Nat) (bm : Bitmap) : ∀ fuel fuel' i m s, fuel ≤ fuel' →
    freeSlotLoop slots bm fuel i m = some s → freeSlotLoop slots bm fuel' i m = some s := by
  intro fuel
  induction fuel with
  | zero => intro fuel' i m s _ h; simp [freeSlotLoop] at h
  | succ fuel ih =>
    intro fuel' i m s hle h
    cases fuel' with
    | zero => omega
    | succ fuel' =>
      unfold freeSlotLoop at h ⊢
      simp only at h ⊢
      split
      · rename_i hc; rw [if_pos hc] at h; exact h
      · rename_i hc; rw [if_neg hc] at h
        exact ih _ _ _ _ (by omega) h

theorem split_or (bm : Bitmap) (r k : Nat) (hk : k < 64) :
    (bm (r / 64) ||| ~~~(BitVec.allOnes 64 <<< (r - r / 64 * 64))).getLsbD k
      = ((bm (r / 64)).getLsbD k || decide (k < r % 64)) := by
  rw [BitVec.getLsbD_or, bm_idx, split_bit _ _ hk]

theorem getFreeSlotRandom_sound {slots r fuel s : Nat} {bm : Bitmap} (hr : r < slots)
    (h : getFreeSlotRandom fuel slots r bm = some s) : s < slots ∧ bm.bit s = false := by
  unfold getFreeSlotRandom at h
  refine freeSlotLoop_sound bm fuel _ _ s (by omega) ?_ h
  intro k hk hb
  rw [split_or bm r k hk] at hb
  simp only [Bool.or_eq_false_iff] at hb
  exact hb.1

/-- From start word `i` with unmasked words, the loop stops within four iterations if the clear slot is in word `i` or
later, or in an earlier word (`slots ≤ 256`, so at most four words are visited). -/
theorem freeSlotLoop_four {slots : Nat} (hs : slots ≤ 256) (bm : Bitmap) {s : Nat} (hss : s < slots)
    (hb : bm.bit s = false) (i : Nat) (hi : i ≤ (slots - 1) / 64) :
    (freeSlotLoop slots bm 4 i (bm i)).isSome := by
  by_cases h : i ≤ s / 64
  · exact freeSlotLoop_reach bm hss hb (s / 64 - i) 4 i (by omega) (by omega)
  · exact freeSlotLoop_total bm hss hb ((slots - 1) / 64 - i) 4 i (by omega) (by omega)

theorem getFreeSlotRandom_total {slots r : Nat} {bm : Bitmap} (hs : slots ≤ 256) (hr : r < slots)
    (h : ∃ s, s < slots ∧ bm.bit s = false) : (getFreeSlotRandom 5 slots r bm).isSome := by
  obtain ⟨s, hss, hb⟩ := h
  unfold getFreeSlotRandom freeSlotLoop
  simp only
  split
  · rfl
  · split
    · exact freeSlotLoop_four hs bm hss hb 0 (by omega)
    · exact freeSlotLoop_four hs bm hss hb _ (by omega)

theorem getFreeSlotLinear_sound {slots : Nat} (hs : 1 ≤ slots) (bm : Bitmap) : ∀ n i s,
    i + n ≤ (slots - 1) / 64 + 1 →
    getFreeSlotLinear slots bm n i = some s → s < slots ∧ bm.bit s = false := by
  intro n
  induction n with
  | zero => intro i s _ h; simp [getFreeSlotLinear] at h
  | succ n ih =>
    intro i s hi h
    unfold getFreeSlotLinear at h
    split at h
    · rename_i hne
      injection h with h
      obtain ⟨h1, h2, h3, _⟩ := ffz64_spec hne
      rw [tailLinear_bit (by omega) hs _ h2] at h3
      simp only [Bool.or_eq_false_iff, decide_eq_false_iff_not] at h3
      subst h
      generalize ffz64 _ - 1 = t at *
      refine ⟨by omega, ?_⟩
      unfold Bitmap.bit
      rw [show (t + i * 64) / 64 = i by omega, show (t + i * 64) % 64 = t by omega]
      exact h3.1
    · exact ih _ _ (by omega) h

theorem getFreeSlotLinear_total {slots : Nat} (bm : Bitmap) {s : Nat} (hss : s < slots)
    (hb : bm.bit s = false) : ∀ n i, i ≤ s / 64 → s / 64 < i + n →
    (getFreeSlotLinear slots bm n i).isSome := by
  intro n
  induction n with
  | zero => intro i h1 h2; omega
  | succ n ih =>
    intro i h1 h2
    unfold getFreeSlotLinear
    split
    · rfl
    · rename_i hne
      by_cases hi : i = s / 64
      · exfalso; apply hne
        have hk : s % 64 < 64 := Nat.mod_lt _ (by decide)
        apply not_allOnes_of_bit hk
        unfold Bitmap.bit at hb
        rw [← hi] at hb
        rw [tailLinear_bit (by omega) (by omega) _ hk, hb]
        simp; omega
      · exact ih _ (by omega) (by omega)

/-- C33 (soundness): any slot returned is inside the slab and free, for every bitmap, slot count and random start. -/
theorem c33_sound (randomize : Bool) (slots r s : Nat) (bm : Bitmap) (h1 : 1 ≤ slots) (hr : r < slots)
    (h : getFreeSlot randomize slots r bm = some s) : s < slots ∧ bm.get s = false := by
  rw [Bitmap.get_eq]
  unfold getFreeSlot at h
  split at h
  · exact getFreeSlotRandom_sound hr h
  · exact getFreeSlotLinear_sound h1 bm _ _ _ (by omega) h

/-- C33 (totality): whenever a free slot exists the search ends and returns a slot (for the randomized variant: within
five loop iterations). -/
theorem c33_total (randomize : Bool) (slots r : Nat) (bm : Bitmap) (h1 : 1 ≤ slots) (h256 : slots ≤ 256)
    (hr : r < slots) (h : ∃ s, s < slots ∧ bm.get s = false) :
    ∃ s, getFreeSlot randomize slots r bm = some s := by
  simp only [Bitmap.get_eq] at h
  rw [← Option.isSome_iff_exists]
  unfold getFreeSlot
  split
  · exact getFreeSlotRandom_total h256 hr h
  · obtain ⟨s, hs, hb⟩ := h
    exact getFreeSlotLinear_total bm hs hb _ 0 (by omega) (by omega)

/-- C33: a full slab never yields a slot, however long the search runs (the randomized loop runs forever, the linear
search aborts). -/
theorem c33_full_none (slots r fuel : Nat) (bm : Bitmap) (h1 : 1 ≤ slots) (hr : r < slots)
    (hfull : ∀ s, s < slots → bm.get s = true) :
    getFreeSlotRandom fuel slots r bm = none ∧ getFreeSlot false slots r bm = none := by
  constructor
  · cases h : getFreeSlotRandom fuel slots r bm with
    | none => rfl
    | some s =>
      obtain ⟨a, b⟩ := getFreeSlotRandom_sound hr h
      rw [← Bitmap.get_eq, hfull s a] at b; cases b
  · cases h : getFreeSlot false slots r bm with
    | none => rfl
    | some s =>
      obtain ⟨a, b⟩ := c33_sound false slots r s bm h1 hr h
      rw [hfull s a] at b; cases b

/-- C33: with randomization every free slot can be selected: starting the search at a free slot returns that slot. -/
theorem c33_every_slot (slots s : Nat) (bm : Bitmap) (hs : s < slots)
    (hfree : bm.get s = false) : getFreeSlot true slots s bm = some s := by
  rw [Bitmap.get_eq] at hfree
  unfold getFreeSlot
  rw [if_pos rfl]
  unfold getFreeSlotRandom freeSlotLoop
  simp only
  have hk : s % 64 < 64 := Nat.mod_lt _ (by decide)
  have hbit : ∀ k, k < 64 → (maskTail slots (s / 64)
        (bm (s / 64) ||| ~~~(BitVec.allOnes 64 <<< (s - s / 64 * 64)))).getLsbD k
      = (((bm (s / 64)).getLsbD k || decide (k < s % 64)) || decide (slots ≤ s / 64 * 64 + k)) := by
    intro k hk
    rw [tail_bit (by omega) _ hk, split_or bm s k hk]
  have hne : maskTail slots (s / 64)
        (bm (s / 64) ||| ~~~(BitVec.allOnes 64 <<< (s - s / 64 * 64))) ≠ BitVec.allOnes 64 := by
    apply not_allOnes_of_bit hk
    rw [hbit _ hk]
    unfold Bitmap.bit at hfree
    simp [hfree]; omega
  rw [if_pos hne]
  obtain ⟨a, b, c, d⟩ := ffz64_spec hne
  congr 1
  have hb1 := hbit _ b
  rw [c] at hb1
  generalize ffz64 _ - 1 = t at *
  have ht : ¬ t < s % 64 := by
    intro hlt; simp [hlt] at hb1
  have ht2 : ¬ s % 64 < t := by
    intro hlt
    have := d _ hlt
    rw [hbit _ hk] at this
    unfold Bitmap.bit at hfree
    simp [hfree] at this; omega
  omega

example : ∃ s, s < 85 ∧ (Bitmap.zero.set 84).get s = false :=
  ⟨3, by decide, by rw [Bitmap.get_eq, Bitmap.bit_set, Bitmap.bit_zero]; decide⟩

end HM
