import Verif.Table
import Mathlib.Data.Finset.Card
import Mathlib.Data.Fintype.Card
import Mathlib.Algebra.Order.BigOperators.Group.Finset
/-
Invariant of the hash table and what the three operations do to the finite map it stands for.
-/
namespace HM

/-- Entries in use are distinct and reachable by probing from their bucket. -/
structure TabInv (hash : Nat → Nat) (t : RTab) (T : Nat) : Prop where
  distinct : ∀ i j, i < T → j < T → (t i).p ≠ 0 → (t i).p = (t j).p → i = j
  probe : ∀ i, i < T → (t i).p ≠ 0 → ∀ x, x < T →
    dist T (bucket hash T (t i).p) x < dist T (bucket hash T (t i).p) i → (t x).p ≠ 0

/-- Number of unused entries. -/
def nulls (t : RTab) (T : Nat) : Nat := ((Finset.range T).filter fun i => (t i).p = 0).card

/-- Entry `r` is stored. -/
def Has (t : RTab) (T : Nat) (r : RegionMeta) : Prop := r.p ≠ 0 ∧ ∃ i, i < T ∧ t i = r

theorem nulls_pos {t : RTab} {T : Nat} (h : 0 < nulls t T) : ∃ z, z < T ∧ (t z).p = 0 := by
  obtain ⟨z, hz⟩ := Finset.card_pos.mp h
  simp only [Finset.mem_filter, Finset.mem_range] at hz
  exact ⟨z, hz.1, hz.2⟩

theorem RTab.set_same (t : RTab) (i : Nat) (r : RegionMeta) : t.set i r i = r := by simp [RTab.set]
theorem RTab.set_ne (t : RTab) {i k : Nat} (r : RegionMeta) (h : k ≠ i) : t.set i r k = t k := by simp [RTab.set, h]

theorem nulls_set_used {t : RTab} {T i : Nat} {r : RegionMeta} (hi : i < T) (h0 : (t i).p = 0) (hr : r.p ≠ 0) :
    nulls (t.set i r) T + 1 = nulls t T := by
  unfold nulls
  have : (Finset.range T).filter (fun k => (t k).p = 0) =
      insert i ((Finset.range T).filter fun k => (t.set i r k).p = 0) := by
    ext k
    simp only [Finset.mem_filter, Finset.mem_range, Finset.mem_insert]
    by_cases hk : k = i
    · subst hk; simp [hi, h0]
    · simp [RTab.set_ne t r hk, hk]
  rw [this, Finset.card_insert_of_notMem]
  simp [RTab.set_same, hr]

theorem nulls_set_null {t : RTab} {T i : Nat} {r : RegionMeta} (hi : i < T) (h0 : (t i).p ≠ 0) (hr : r.p = 0) :
    nulls (t.set i r) T = nulls t T + 1 := by
  unfold nulls
  have : (Finset.range T).filter (fun k => (t.set i r k).p = 0) =
      insert i ((Finset.range T).filter fun k => (t k).p = 0) := by
    ext k
    simp only [Finset.mem_filter, Finset.mem_range, Finset.mem_insert]
    by_cases hk : k = i
    · subst hk; simp [hi, RTab.set_same, hr]
    · simp [RTab.set_ne t r hk, hk]
  rw [this, Finset.card_insert_of_notMem]
  simp [h0]

/-! ### find -/

theorem tableFind_present {hash : Nat → Nat} {t : RTab} {T k i : Nat} (hT : T = 2 ^ k) (hk : k < 64)
    (inv : TabInv hash t T) (hi : i < T) (hp : (t i).p ≠ 0) : tableFind hash t T (t i).p = some (some i) := by
  have hb : bucket hash T (t i).p < T := bucket_lt hT
  obtain ⟨j, hj, hs, hst, hmin⟩ := scan_some hT hk hb (fun x => (t x).p == (t i).p || (t x).p == 0)
    ⟨i, hi, by simp⟩
  have hji : j = i := by
    by_contra hne
    have hpj : (t j).p ≠ (t i).p := fun h => hne (inv.distinct j i hj hi (by rw [h]; exact hp) h)
    have hj0 : (t j).p = 0 := by simpa [hpj] using hst
    rcases Nat.lt_trichotomy (dist T (bucket hash T (t i).p) i) (dist T (bucket hash T (t i).p) j) with h | h | h
    · have := hmin i hi h; simp at this
    · apply hne
      rw [← downAt_dist hb hj, ← h, downAt_dist hb hi]
    · exact inv.probe i hi hp j hj h hj0
  unfold tableFind
  rw [hs, hji]
  simp [hp]

theorem tableFind_absent {hash : Nat → Nat} {t : RTab} {T k p : Nat} (hT : T = 2 ^ k) (hk : k < 64)
    (hz : 0 < nulls t T) (h : p = 0 ∨ ∀ i, i < T → (t i).p ≠ p) : tableFind hash t T p = some none := by
  obtain ⟨z, hz, hz0⟩ := nulls_pos hz
  obtain ⟨j, hj, hs, hst, _⟩ := scan_some hT hk (bucket_lt (hash := hash) (p := p) hT)
    (fun x => (t x).p == p || (t x).p == 0) ⟨z, hz, by simp [hz0]⟩
  unfold tableFind
  rw [hs]
  have : ¬((t j).p = p ∧ (t j).p ≠ 0) := by
    rintro ⟨h1, h2⟩
    rcases h with h | h
    · exact h2 (h1.trans h)
    · exact h j hj h1
  simp only [if_neg this]

/-! ### insert -/

theorem tableInsert_spec {hash : Nat → Nat} {t : RTab} {T k : Nat} {r : RegionMeta} (hT : T = 2 ^ k) (hk : k < 64)
    (inv : TabInv hash t T) (hz : 0 < nulls t T) (hr : r.p ≠ 0) (hnew : ∀ i, i < T → (t i).p ≠ r.p) :
    ∃ i, i < T ∧ (t i).p = 0 ∧ tableInsert hash t T r = some (t.set i r) ∧ TabInv hash (t.set i r) T := by
  obtain ⟨z, hz, hz0⟩ := nulls_pos hz
  have hb : bucket hash T r.p < T := bucket_lt hT
  obtain ⟨j, hj, hs, hst, hmin⟩ := scan_some hT hk hb (fun x => (t x).p == 0) ⟨z, hz, by simp [hz0]⟩
  have hj0 : (t j).p = 0 := by simpa using hst
  refine ⟨j, hj, hj0, by unfold tableInsert; rw [hs], ?_, ?_⟩
  · intro a b ha hb' hpa heq
    by_cases h1 : a = j <;> by_cases h2 : b = j
    · rw [h1, h2]
    · subst h1; rw [RTab.set_same, RTab.set_ne t r h2] at heq
      exact absurd heq.symm (hnew b hb')
    · subst h2; rw [RTab.set_same, RTab.set_ne t r h1] at heq
      exact absurd heq (hnew a ha)
    · rw [RTab.set_ne t r h1] at hpa heq
      rw [RTab.set_ne t r h2] at heq
      exact inv.distinct a b ha hb' hpa heq
  · intro a ha hpa x hx hlt
    by_cases h2 : x = j
    · subst h2; rw [RTab.set_same]; exact hr
    · rw [RTab.set_ne t r h2]
      by_cases h1 : a = j
      · subst h1
        rw [RTab.set_same] at hlt
        have := hmin x hx hlt
        simpa using this
      · rw [RTab.set_ne t r h1] at hpa hlt
        exact inv.probe a ha hpa x hx hlt

theorem has_set_used {t : RTab} {T i : Nat} {r q : RegionMeta} (hi : i < T) (h0 : (t i).p = 0) (hr : r.p ≠ 0) :
    Has (t.set i r) T q ↔ Has t T q ∨ q = r := by
  constructor
  · rintro ⟨hq, j, hj, he⟩
    by_cases h : j = i
    · subst h; rw [RTab.set_same] at he; exact Or.inr he.symm
    · rw [RTab.set_ne t r h] at he; exact Or.inl ⟨hq, j, hj, he⟩
  · rintro (⟨hq, j, hj, he⟩ | h)
    · refine ⟨hq, j, hj, ?_⟩
      have : j ≠ i := by rintro rfl; rw [he] at h0; exact hq h0
      rw [RTab.set_ne t r this]; exact he
    · subst h; exact ⟨hr, i, hi, RTab.set_same t i q⟩

/-! ### delete -/

/-- State of the deletion loop: entry `j` is a hole and `i` the scan position. -/
structure DelInv (hash : Nat → Nat) (t : RTab) (T j i : Nat) : Prop where
  hole : (t j).p = 0
  distinct : ∀ a b, a < T → b < T → (t a).p ≠ 0 → (t a).p = (t b).p → a = b
  probe : ∀ a, a < T → (t a).p ≠ 0 → ∀ x, x < T →
    dist T (bucket hash T (t a).p) x < dist T (bucket hash T (t a).p) a → (t x).p ≠ 0 ∨ x = j
  scanned : ∀ a, a < T → (t a).p ≠ 0 → dist T j a ≤ dist T j i → 
    dist T (bucket hash T (t a).p) a < dist T j a

theorem cyc_cond {T i j r : Nat} (hi : i < T) (hj : j < T) (hr : r < T) :
    ((i ≤ r ∧ r < j) ∨ (r < j ∧ j < i) ∨ (j < i ∧ i ≤ r)) ↔ dist T r i < dist T j i := by
  unfold dist
  split <;> split <;> omega

theorem geo1 {T h x a : Nat} (hx : x < T) (h1 : dist T h x < dist T h a) :
    dist T x a ≤ dist T h a := by
  unfold dist at *; split_ifs at * <;> omega

theorem geo2 {T h x a i : Nat} (hx : x < T) (hi : i < T)
    (h1 : dist T h x < dist T h a) (h2 : dist T x i < dist T x a) : dist T h i < dist T h a := by
  unfold dist at *; split_ifs at * <;> omega

theorem geo3 {T h x j i : Nat} (hh : h < T) (hx : x < T) (hj : j < T) (hi : i < T)
    (h1 : dist T h x < dist T h j) (h2 : ¬dist T h i < dist T j i) : dist T h x < dist T h i := by
  unfold dist at *; split_ifs at * <;> omega

/-- The deletion loop ends with the invariant restored, the same entries and the same number of unused entries. -/
theorem deleteLoop_spec {hash : Nat → Nat} {T k : Nat} (hT : T = 2 ^ k) (hk : k < 64) :
    ∀ fuel (t : RTab) (j i z : Nat), j < T → i < T → z < T → (t z).p = 0 → z ≠ j → 
      dist T j i < dist T j z → dist T i z ≤ fuel → DelInv hash t T j i →
      ∃ t', deleteLoop hash T fuel t j i = some t' ∧ TabInv hash t' T ∧ nulls t' T = nulls t T ∧
        ∀ q, Has t' T q ↔ Has t T q := by
  intro fuel
  induction fuel with
  | zero =>
    intro t j i z hj hi hz _ hzj hlt hd _
    exfalso
    unfold dist at hlt hd
    split at hlt <;> split at hlt <;> split at hd <;> omega
  | succ fuel ih =>
    intro t j i z hj hi hz hz0 hzj hlt hd inv
    have hpi : prevIdx T i = if i = 0 then T - 1 else i - 1 := prevIdx_eq hT hk hi
    have hi'T : prevIdx T i < T := by rw [hpi]; split <;> omega
    generalize hi' : prevIdx T i = i' at hpi hi'T
    have hstep : dist T j i' = dist T j i + 1 := by
      rw [hpi]; unfold dist at hlt ⊢
      split at hlt <;> split at hlt <;> split <;> split <;> omega
    have hstepz : dist T i' z + 1 = dist T i z := by
      rw [hpi]; unfold dist at hlt ⊢
      split at hlt <;> split at hlt <;> split <;> split <;> split <;> omega
    have hne : i' ≠ j := by
      intro h; rw [h] at hstep; simp [dist] at hstep
    unfold deleteLoop
    simp only [hi']
    by_cases h0 : (t i').p = 0
    · rw [if_pos h0]
      refine ⟨t, rfl, ⟨inv.distinct, ?_⟩, rfl, fun _ => Iff.rfl⟩
      intro a ha hpa x hx hxd
      rcases inv.probe a ha hpa x hx hxd with h | h
      · exact h
      · exfalso
        subst h
        -- the path of `a` passes the hole; `i'` would have to be on it as well
        have hb : bucket hash T (t a).p < T := bucket_lt hT
        by_cases hsc : dist T x a ≤ dist T x i
        · have := inv.scanned a ha hpa hsc
          have := geo1 hj hxd
          omega
        · have hai : a ≠ i' := fun h => hpa (by rw [h]; exact h0)
          have hlt' : dist T x i' < dist T x a := by
            have : dist T x a ≠ dist T x i' := by
              intro h; apply hai; rw [← downAt_dist hj ha, h, downAt_dist hj hi'T]
            omega
          have hon : dist T (bucket hash T (t a).p) i' < dist T (bucket hash T (t a).p) a :=
            geo2 hj hi'T hxd hlt'
          rcases inv.probe a ha hpa i' hi'T hon with h | h
          · exact h h0
          · exact hne h
    · rw [if_neg h0]
      have hr : bucket hash T (t i').p < T := bucket_lt hT
      have hzi : z ≠ i' := by rintro rfl; exact h0 hz0
      have hltz : dist T j i' < dist T j z := by
        have : dist T j i' ≠ dist T j z := by
          intro h; apply hzi; rw [← downAt_dist hj hz, ← h, downAt_dist hj hi'T]
        omega
      by_cases hc : dist T (bucket hash T (t i').p) i' < dist T j i'
      · rw [if_pos ((cyc_cond hi'T hj hr).mpr hc)]
        refine ih t j i' z hj hi'T hz hz0 hzj hltz (by omega) ⟨inv.hole, inv.distinct, inv.probe, ?_⟩
        intro a ha hpa hle
        by_cases hle' : dist T j a ≤ dist T j i
        · exact inv.scanned a ha hpa hle'
        · have : a = i' := by
            rw [← downAt_dist hj ha, show dist T j a = dist T j i' by omega, downAt_dist hj hi'T]
          subst this; exact hc
      · rw [if_neg (fun h => hc ((cyc_cond hi'T hj hr).mp h))]
        -- move entry i' into the hole
        set t1 : RTab := (t.set j (t i')).set i' { (t.set j (t i')) i' with p := 0, size := 0 } with ht1
        have t1i : (t1 i').p = 0 := by rw [ht1, RTab.set_same]
        have t1j : t1 j = t i' := by rw [ht1, RTab.set_ne _ _ (Ne.symm hne), RTab.set_same]
        have t1o : ∀ x, x ≠ i' → x ≠ j → t1 x = t x := by
          intro x h1 h2; rw [ht1, RTab.set_ne _ _ h1, RTab.set_ne _ _ h2]
        have hdii : dist T i' i' = 0 := by simp [dist]
        have hzd : dist T i' i' < dist T i' z := by
          rw [hdii]
          unfold dist; split <;> omega
        have inv' : DelInv hash t1 T i' i' := by
          refine ⟨t1i, ?_, ?_, ?_⟩
          · intro a b ha hb hpa hab
            have hai : a ≠ i' := by rintro rfl; exact hpa t1i
            have hbi : b ≠ i' := by rintro rfl; rw [t1i] at hab; exact hpa hab
            by_cases haj : a = j <;> by_cases hbj : b = j
            · rw [haj, hbj]
            · subst haj; rw [t1j, t1o b hbi hbj] at hab
              exact absurd (inv.distinct i' b hi'T hb h0 hab).symm hbi
            · subst hbj; rw [t1j, t1o a hai haj] at hab
              rw [t1o a hai haj] at hpa
              exact absurd (inv.distinct a i' ha hi'T hpa hab) hai
            · rw [t1o a hai haj, t1o b hbi hbj] at hab
              rw [t1o a hai haj] at hpa
              exact inv.distinct a b ha hb hpa hab
          · intro a ha hpa x hx hxd
            by_cases hxi : x = i'
            · exact Or.inr hxi
            · left
              by_cases hxj : x = j
              · subst hxj; rw [t1j]; exact h0
              · rw [t1o x hxi hxj]
                have hai : a ≠ i' := by rintro rfl; exact hpa t1i
                by_cases haj : a = j
                · subst haj
                  rw [t1j] at hxd
                  have hxd' : dist T (bucket hash T (t i').p) x < dist T (bucket hash T (t i').p) i' :=
                    geo3 hr hx ha hi'T hxd hc
                  rcases inv.probe i' hi'T h0 x hx hxd' with h | h
                  · exact h
                  · exact absurd h hxj
                · rw [t1o a hai haj] at hxd hpa
                  rcases inv.probe a ha hpa x hx hxd with h | h
                  · exact h
                  · exact absurd h hxj
          · intro a ha hpa hle
            exfalso
            rw [hdii] at hle
            have : a = i' := by
              have h0' : dist T i' a = dist T i' i' := by rw [hdii]; omega
              rw [← downAt_dist hi'T ha, h0', downAt_dist hi'T hi'T]
            subst this; exact hpa t1i
        obtain ⟨t', he, hinv, hn, hh⟩ := ih t1 i' i' z hi'T hi'T hz (by rw [t1o z hzi hzj]; exact hz0) hzi hzd
          (by omega) inv'
        refine ⟨t', he, hinv, ?_, ?_⟩
        · rw [hn, ht1]
          have h1 := nulls_set_used (t := t) (T := T) (r := t i') hj inv.hole h0
          have h2 := nulls_set_null (t := t.set j (t i')) (T := T)
            (r := { (t.set j (t i')) i' with p := 0, size := 0 }) hi'T (by rw [RTab.set_ne _ _ hne]; exact h0) rfl
          omega
        · intro q
          rw [hh]
          constructor
          · rintro ⟨hq, a, ha, hea⟩
            by_cases hai : a = i'
            · rw [← hea, hai] at hq; exact absurd t1i hq
            · by_cases haj : a = j
              · exact ⟨hq, i', hi'T, by rw [← t1j, ← haj]; exact hea⟩
              · exact ⟨hq, a, ha, by rw [← t1o a hai haj]; exact hea⟩
          · rintro ⟨hq, a, ha, hea⟩
            by_cases hai : a = i'
            · exact ⟨hq, j, hj, by rw [t1j, ← hai]; exact hea⟩
            · have haj : a ≠ j := by
                intro h; rw [h] at hea; apply hq; rw [← hea]; exact inv.hole
              exact ⟨hq, a, ha, by rw [t1o a hai haj]; exact hea⟩

theorem tableDelete_spec {hash : Nat → Nat} {t : RTab} {T k i : Nat} (hT : T = 2 ^ k) (hk : k < 64)
    (inv : TabInv hash t T) (hz : 0 < nulls t T) (hi : i < T) (hp : (t i).p ≠ 0) :
    ∃ t', tableDelete hash t T i = some t' ∧ TabInv hash t' T ∧ nulls t' T = nulls t T + 1 ∧
      ∀ q, Has t' T q ↔ Has t T q ∧ q ≠ t i := by
  obtain ⟨z, hzT, hz0⟩ := nulls_pos hz
  have hzi : z ≠ i := by rintro rfl; exact hp hz0
  unfold tableDelete
  set t0 : RTab := t.set i { t i with p := 0, size := 0 } with ht0
  have t0i : (t0 i).p = 0 := by rw [ht0, RTab.set_same]
  have t0o : ∀ x, x ≠ i → t0 x = t x := fun x h => by rw [ht0, RTab.set_ne _ _ h]
  have hdii : dist T i i = 0 := by simp [dist]
  have hzd : dist T i i < dist T i z := by rw [hdii]; unfold dist; split <;> omega
  have inv0 : DelInv hash t0 T i i := by
    refine ⟨t0i, ?_, ?_, ?_⟩
    · intro a b ha hb hpa hab
      have hai : a ≠ i := by rintro rfl; exact hpa t0i
      have hbi : b ≠ i := by rintro rfl; rw [t0i] at hab; exact hpa hab
      rw [t0o a hai, t0o b hbi] at hab
      rw [t0o a hai] at hpa
      exact inv.distinct a b ha hb hpa hab
    · intro a ha hpa x hx hxd
      have hai : a ≠ i := by rintro rfl; exact hpa t0i
      by_cases hxi : x = i
      · exact Or.inr hxi
      · rw [t0o a hai] at hpa hxd
        rw [t0o x hxi]
        exact Or.inl (inv.probe a ha hpa x hx hxd)
    · intro a ha hpa hle
      exfalso
      rw [hdii] at hle
      have : a = i := by
        have h0' : dist T i a = dist T i i := by rw [hdii]; omega
        rw [← downAt_dist hi ha, h0', downAt_dist hi hi]
      subst this; exact hpa t0i
  obtain ⟨t', he, hinv, hn, hh⟩ := deleteLoop_spec hT hk T t0 i i z hi hi hzT (by rw [t0o z hzi]; exact hz0) hzi hzd
    (by have := dist_lt hi hzT; omega) inv0
  refine ⟨t', he, hinv, ?_, ?_⟩
  · rw [hn, ht0]; exact nulls_set_null hi hp rfl
  · intro q
    rw [hh]
    constructor
    · rintro ⟨hq, a, ha, hea⟩
      have hai : a ≠ i := by rintro rfl; rw [hea] at t0i; exact hq t0i
      rw [t0o a hai] at hea
      refine ⟨⟨hq, a, ha, hea⟩, ?_⟩
      rintro rfl
      exact hai (inv.distinct a i ha hi (by rw [hea]; exact hq) (by rw [hea]))
    · rintro ⟨⟨hq, a, ha, hea⟩, hne⟩
      have hai : a ≠ i := by rintro rfl; exact hne hea.symm
      exact ⟨hq, a, ha, by rw [t0o a hai]; exact hea⟩

/-! ### rehash -/

theorem nulls_empty (T : Nat) (t : RTab) (h : ∀ i, i < T → (t i).p = 0) : nulls t T = T := by
  unfold nulls
  rw [Finset.filter_true_of_mem (by intro x hx; exact h x (Finset.mem_range.mp hx)), Finset.card_range]

theorem nulls_succ (t : RTab) (n : Nat) : nulls t (n + 1) = nulls t n + if (t n).p = 0 then 1 else 0 := by
  unfold nulls
  rw [Finset.range_add_one, Finset.filter_insert]
  split
  · rw [Finset.card_insert_of_notMem (by simp)]
  · rfl

theorem nulls_le (t : RTab) (n : Nat) : nulls t n ≤ n := by
  unfold nulls
  exact (Finset.card_filter_le _ _).trans (by simp)

/-- Rehashing entries `s, …, s + n - 1` of a table with distinct keys. -/
theorem rehash_spec {hash : Nat → Nat} {old : RTab} {T T' k : Nat} (hT : T' = 2 ^ k) (hk : k < 64)
    (hd : ∀ i j, i < T → j < T → (old i).p ≠ 0 → (old i).p = (old j).p → i = j) :
    ∀ n s (new : RTab), s + n ≤ T → TabInv hash new T' → s + n < T' → 
      nulls new T' + (s - nulls old s) = T' →
      (∀ q, Has new T' q ↔ Has old s q) →
      ∃ t', rehash hash old T' n s new = some t' ∧ TabInv hash t' T' ∧
        nulls t' T' + (s + n - nulls old (s + n)) = T' ∧ ∀ q, Has t' T' q ↔ Has old (s + n) q := by
  intro n
  induction n with
  | zero => intro s new _ inv _ hn hh; exact ⟨new, rfl, inv, hn, hh⟩
  | succ n ih =>
    intro s new hs inv hsT hn hh
    have hns := nulls_le old s
    have hsucc := nulls_succ old s
    unfold rehash
    by_cases h0 : (old s).p = 0
    · rw [if_neg (by simpa using h0)]
      rw [if_pos h0] at hsucc
      obtain ⟨t', h1, h2, h3, h4⟩ := ih (s + 1) new (by omega) inv (by omega) (by omega) (by
        intro q
        rw [hh]
        constructor
        · rintro ⟨hq, a, ha, he⟩; exact ⟨hq, a, by omega, he⟩
        · rintro ⟨hq, a, ha, he⟩
          have : a ≠ s := by rintro rfl; rw [he] at h0; exact hq h0
          exact ⟨hq, a, by omega, he⟩)
      refine ⟨t', h1, h2, ?_, ?_⟩
      · rw [show s + (n + 1) = s + 1 + n by omega]; exact h3
      · rw [show s + (n + 1) = s + 1 + n by omega]; exact h4
    · rw [if_pos (by simpa using h0)]
      rw [if_neg h0] at hsucc
      have hz : 0 < nulls new T' := by omega
      have hnew : ∀ i, i < T' → (new i).p ≠ (old s).p := by
        intro i hi he
        have : Has new T' (new i) := ⟨by rw [he]; exact h0, i, hi, rfl⟩
        obtain ⟨_, a, ha, hea⟩ := (hh _).mp this
        have := hd a s (by omega) (by omega) (by rw [hea, he]; exact h0) (by rw [hea, he])
        omega
      obtain ⟨i, hi, hi0, hins, hinv⟩ := tableInsert_spec hT hk inv hz h0 hnew
      rw [hins]
      have hnu := nulls_set_used (t := new) (T := T') (r := old s) hi hi0 h0
      obtain ⟨t', h1, h2, h3, h4⟩ := ih (s + 1) (new.set i (old s)) (by omega) hinv (by omega) (by omega) (by
        intro q
        rw [has_set_used hi hi0 h0, hh]
        constructor
        · rintro (⟨hq, a, ha, he⟩ | h)
          · exact ⟨hq, a, by omega, he⟩
          · subst h; exact ⟨h0, s, by omega, rfl⟩
        · rintro ⟨hq, a, ha, he⟩
          by_cases has : a = s
          · subst has; exact Or.inr he.symm
          · exact Or.inl ⟨hq, a, by omega, he⟩)
      refine ⟨t', h1, h2, ?_, ?_⟩
      · rw [show s + (n + 1) = s + 1 + n by omega]; exact h3
      · rw [show s + (n + 1) = s + 1 + n by omega]; exact h4

/-! ### The whole table -/

/-- Invariant of the table: a power-of-two size, the current array well formed, `free` the number of unused entries and
never below the minimum that keeps probe loops finite, and the spare array unused. -/
structure RegTable.Inv (hash : Nat → Nat) (t : RegTable) : Prop where
  pow : ∃ k, 7 ≤ k ∧ k < 60 ∧ t.total = 2 ^ k
  tab : TabInv hash t.tab t.total
  free : t.free = nulls t.tab t.total
  room : t.total ≤ t.free * 4 + 4
  spare : ∀ i, ((t.tabs (!t.cur)) i).p = 0
  outside : ∀ i, t.total ≤ i → (t.tab i).p = 0

/-- Entry `r` is recorded. -/
def RegTable.Has (t : RegTable) (r : RegionMeta) : Prop := HM.Has t.tab t.total r

theorem RegTable.setTab_tab (t : RegTable) (r : RTab) : (t.setTab r).tab = r := by
  simp [RegTable.setTab, RegTable.tab]

theorem RegTable.Inv.nulls_pos {hash : Nat → Nat} {t : RegTable} (h : t.Inv hash) : 0 < nulls t.tab t.total := by
  obtain ⟨k, h7, _, hp⟩ := h.pow
  have : 2 ^ 7 ≤ 2 ^ k := Nat.pow_le_pow_right (by decide) h7
  have := h.room
  rw [← h.free]
  omega

theorem RegTable.init_inv (hash : Nat → Nat) : RegTable.init.Inv hash := by
  refine ⟨⟨7, by decide, by decide, rfl⟩, ⟨?_, ?_⟩, ?_, by decide, fun _ => rfl, fun _ _ => rfl⟩
  · intro i j _ _ h; exact absurd rfl h
  · intro i _ h; exact absurd rfl h
  · rw [nulls_empty _ _ (fun _ _ => rfl)]; rfl

theorem tableInsert_outside {hash : Nat → Nat} {t t' : RTab} {T k : Nat} {r : RegionMeta} (hT : T = 2 ^ k) (hk : k < 64)
    (h : tableInsert hash t T r = some t') (hz : 0 < nulls t T) {x : Nat} (hx : T ≤ x) : t' x = t x := by
  obtain ⟨z, hz, hz0⟩ := HM.nulls_pos hz
  obtain ⟨j, hj, hs, -, -⟩ := scan_some hT hk (bucket_lt (hash := hash) (p := r.p) hT) (fun x => (t x).p == 0)
    ⟨z, hz, by simp [hz0]⟩
  unfold tableInsert at h
  rw [hs] at h
  simp only [Option.some.injEq] at h
  rw [← h, RTab.set_ne _ _ (by omega)]

theorem prevIdx_lt {T k : Nat} (i : Nat) (hT : T = 2 ^ k) : prevIdx T i < T := by
  unfold prevIdx
  rw [hT, Nat.and_two_pow_sub_one_eq_mod]
  exact Nat.mod_lt _ (Nat.two_pow_pos k)

theorem deleteLoop_outside {hash : Nat → Nat} {T k : Nat} (hT : T = 2 ^ k) {x : Nat} (hx : T ≤ x) :
    ∀ fuel (t t' : RTab) (j i : Nat), j < T → i < T → deleteLoop hash T fuel t j i = some t' → t' x = t x := by
  intro fuel
  induction fuel with
  | zero => intro t t' j i _ _ h; simp [deleteLoop] at h
  | succ fuel ih =>
    intro t t' j i hj hi h
    have hi' := prevIdx_lt i hT
    unfold deleteLoop at h
    simp only at h
    split at h
    · simp only [Option.some.injEq] at h; rw [h]
    · split at h
      · exact ih _ _ _ _ hj hi' h
      · have := ih _ _ _ _ hi' hi' h
        rw [this, RTab.set_ne _ _ (by omega), RTab.set_ne _ _ (by omega)]

theorem tableDelete_outside {hash : Nat → Nat} {t t' : RTab} {T k i : Nat} (hT : T = 2 ^ k) (hi : i < T)
    (h : tableDelete hash t T i = some t') {x : Nat} (hx : T ≤ x) : t' x = t x := by
  unfold tableDelete at h
  simp only at h
  rw [deleteLoop_outside hT hx _ _ _ _ _ hi hi h, RTab.set_ne _ _ (by omega)]

theorem regionsFind_spec {hash : Nat → Nat} {t : RegTable} (inv : t.Inv hash) (p : Nat) :
    (∃ i, i < t.total ∧ p ≠ 0 ∧ (t.tab i).p = p ∧ regionsFind hash t p = .ok (some i)) ∨
    ((p = 0 ∨ ∀ i, i < t.total → (t.tab i).p ≠ p) ∧ regionsFind hash t p = .ok none) := by
  obtain ⟨k, h7, hk, hT⟩ := inv.pow
  by_cases h : p ≠ 0 ∧ ∃ i, i < t.total ∧ (t.tab i).p = p
  · obtain ⟨hp, i, hi, he⟩ := h
    left
    refine ⟨i, hi, hp, he, ?_⟩
    have := tableFind_present hT (by omega) inv.tab hi (by rw [he]; exact hp)
    rw [he] at this
    unfold regionsFind; rw [this]
  · right
    have h' : p = 0 ∨ ∀ i, i < t.total → (t.tab i).p ≠ p := by
      by_cases hp : p = 0
      · exact Or.inl hp
      · right; intro i hi he; exact h ⟨hp, i, hi, he⟩
    refine ⟨h', ?_⟩
    unfold regionsFind
    rw [tableFind_absent hT (by omega) inv.nulls_pos h']

theorem regionsDelete_spec {hash : Nat → Nat} {t : RegTable} {i : Nat} (inv : t.Inv hash) (hi : i < t.total)
    (hp : (t.tab i).p ≠ 0) :
    ∃ t', regionsDelete hash t i = .ok t' ∧ t'.Inv hash ∧ ∀ q, t'.Has q ↔ t.Has q ∧ q ≠ t.tab i := by
  obtain ⟨k, h7, hk, hT⟩ := inv.pow
  obtain ⟨tab, h1, h2, h3, h4⟩ := tableDelete_spec hT (by omega) inv.tab inv.nulls_pos hi hp
  have hr := inv.room
  refine ⟨{ t.setTab tab with free := t.free + 1 }, by unfold regionsDelete; rw [h1], ?_, ?_⟩
  · have e : ({ t.setTab tab with free := t.free + 1 } : RegTable).tab = tab := t.setTab_tab tab
    refine ⟨⟨k, h7, hk, hT⟩, ?_, ?_, ?_, ?_, ?_⟩
    · rw [e]; exact h2
    · rw [e]; show t.free + 1 = nulls tab t.total; rw [h3, inv.free]
    · show t.total ≤ (t.free + 1) * 4 + 4; omega
    · intro x
      have : (({ t.setTab tab with free := t.free + 1 } : RegTable).tabs (!t.cur)) = t.tabs (!t.cur) := by
        simp [RegTable.setTab]
      show ((({ t.setTab tab with free := t.free + 1 } : RegTable).tabs (!t.cur)) x).p = 0
      rw [this]; exact inv.spare x
    · intro x hx
      rw [e, tableDelete_outside hT hi h1 hx]
      exact inv.outside x hx
  · intro q
    show HM.Has (t.setTab tab).tab t.total q ↔ _
    rw [t.setTab_tab]
    exact h4 q

/-- Growth never loses or invents an entry, provided the old array is really remapped. -/
theorem regionsGrow_spec {hash : Nat → Nat} {t : RegTable} {maxTotal : Nat} {protOk : Bool} (inv : t.Inv hash) :
    (regionsGrow hash maxTotal protOk true t = .ok none ∧ (maxTotal < 2 * t.total ∨ W64 ≤ 48 * t.total + 96 ∨ protOk = false)) ∨
    ∃ t', regionsGrow hash maxTotal protOk true t = .ok (some t') ∧ t'.Inv hash ∧ (∀ q, t'.Has q ↔ t.Has q) ∧
      t'.total = 2 * t.total ∧ t'.free = t.free + t.total := by
  obtain ⟨k, h7, hk, hT⟩ := inv.pow
  unfold regionsGrow
  by_cases h1 : t.total > (W64 - 1) / 24 / 2
  · left; rw [if_pos h1]; exact ⟨rfl, by omega⟩
  · rw [if_neg h1]
    simp only
    by_cases h2 : t.total * 2 > maxTotal
    · left; rw [if_pos h2]; exact ⟨rfl, by omega⟩
    · rw [if_neg h2]
      cases protOk with
      | false => left; exact ⟨rfl, by simp⟩
      | true =>
        right
        have hk' : k + 1 < 60 := by
          by_contra hc
          have : 2 ^ 59 ≤ 2 ^ k := Nat.pow_le_pow_right (by decide) (by omega)
          have e : (2 : Nat) ^ 59 = 576460752303423488 := by norm_num
          omega
        have hT' : t.total * 2 = 2 ^ (k + 1) := by rw [hT, Nat.pow_succ]
        have hpos : 0 < t.total := by rw [hT]; exact Nat.two_pow_pos k
        have hn : nulls (t.tabs (!t.cur)) (t.total * 2) = t.total * 2 := nulls_empty _ _ (fun i _ => inv.spare i)
        obtain ⟨new, r1, r2, r3, r4⟩ := rehash_spec (hash := hash) (old := t.tab) (T := t.total) hT' (by omega) inv.tab.distinct t.total 0
          (t.tabs (!t.cur)) (by omega)
          ⟨fun i j _ _ h => absurd (inv.spare i) h, fun i _ h => absurd (inv.spare i) h⟩ (by omega)
          (by rw [hn]; simp) (by
            intro q
            constructor
            · rintro ⟨hq, i, _, he⟩; rw [← he] at hq; exact absurd (inv.spare i) hq
            · rintro ⟨_, i, hi, _⟩; omega)
        rw [Nat.zero_add] at r3 r4
        rw [r1]
        have hle := nulls_le t.tab t.total
        have hfree := inv.free
        have hroom := inv.room
        have hout : ∀ x, t.total * 2 ≤ x → new x = t.tabs (!t.cur) x := by
          intro x hx
          have key : ∀ n s (a b : RTab), rehash hash t.tab (t.total * 2) n s a = some b → s + n ≤ t.total →
              nulls a (t.total * 2) + s ≥ t.total * 2 → b x = a x := by
            intro n
            induction n with
            | zero => intro s a b h _ _; simp only [rehash, Option.some.injEq] at h; rw [h]
            | succ n ih =>
              intro s a b h hs hna
              unfold rehash at h
              split at h
              · next hne =>
                cases hti : tableInsert hash a (t.total * 2) (t.tab s) with
                | none => rw [hti] at h; simp at h
                | some c =>
                  rw [hti] at h
                  simp only at h
                  have hna' : nulls c (t.total * 2) + 1 = nulls a (t.total * 2) := by
                    obtain ⟨z, hz, hz0⟩ := HM.nulls_pos (t := a) (T := t.total * 2) (by omega)
                    obtain ⟨j, hj, hs', hst, -⟩ := scan_some hT' (by omega)
                      (bucket_lt (hash := hash) (p := (t.tab s).p) hT') (fun x => (a x).p == 0) ⟨z, hz, by simp [hz0]⟩
                    unfold tableInsert at hti
                    rw [hs'] at hti
                    simp only [Option.some.injEq] at hti
                    rw [← hti]
                    exact nulls_set_used hj (by simpa using hst) hne
                  rw [ih _ _ _ h (by omega) (by omega), tableInsert_outside hT' (by omega) hti (by omega) hx]
              · exact ih _ _ _ h (by omega) (by omega)
          exact key _ _ _ _ r1 (by omega) (by rw [hn]; omega)
        refine ⟨_, rfl, ?_, ?_, by simp only; omega, rfl⟩
        · refine ⟨⟨k + 1, by omega, by omega, hT'⟩, ?_, ?_, ?_, ?_, ?_⟩
          · simpa [RegTable.tab] using r2
          · simp only [RegTable.tab, Bool.not_eq_eq_eq_not]
            have : (if (!t.cur) = t.cur then (if true = true then (fun i => if i < t.total then RegionMeta.empty else t.tabs t.cur i) else t.tabs t.cur : RTab) else new) = new := by
              rw [if_neg (by simp)]
            simp only [RegTable.tab] at r3 hfree hle
            simp
            omega
          · simp only; omega
          · intro i
            simp only [Bool.not_not, if_true]
            split
            · rfl
            · exact inv.outside i (by omega)
          · intro i hi
            simp only at hi
            have : new i = t.tabs (!t.cur) i := hout i (by omega)
            simp [RegTable.tab, this, inv.spare]
        · intro q
          simp only [RegTable.Has, RegTable.tab] at r4 ⊢
          simp
          exact r4 q

theorem regionsInsert_spec {hash : Nat → Nat} {t : RegTable} {maxTotal : Nat} {protOk : Bool} {r : RegionMeta}
    (inv : t.Inv hash) (hr : r.p ≠ 0) (hnew : ∀ q, t.Has q → q.p ≠ r.p) :
    (regionsInsert hash maxTotal protOk true t r = .ok none ∧ 3 * t.total < 4 * (t.total - t.free) ∧
      (maxTotal < 2 * t.total ∨ W64 ≤ 48 * t.total + 96 ∨ protOk = false)) ∨
    ∃ t', regionsInsert hash maxTotal protOk true t r = .ok (some t') ∧ t'.Inv hash ∧
      (∀ q, t'.Has q ↔ t.Has q ∨ q = r) := by
  have hle : t.free ≤ t.total := by rw [inv.free]; exact nulls_le _ _
  -- insertion into a table with enough room
  have main : ∀ u : RegTable, u.Inv hash → (∀ q, u.Has q ↔ t.Has q) → u.total ≤ u.free * 4 →
      ∃ t', (match tableInsert hash u.tab u.total r with
        | none => (.hang : Res (Option RegTable))
        | some tab => .ok (some { u.setTab tab with free := u.free - 1 })) = .ok (some t') ∧ t'.Inv hash ∧
      (∀ q, t'.Has q ↔ t.Has q ∨ q = r) := by
    intro u uinv hu huf
    obtain ⟨k, h7, hk, hT⟩ := uinv.pow
    have hpos : 0 < u.total := by rw [hT]; exact Nat.two_pow_pos k
    obtain ⟨i, hi, hi0, hins, hinv⟩ := tableInsert_spec (r := r) hT (by omega) uinv.tab uinv.nulls_pos hr (by
      intro i hi he
      exact hnew _ ((hu _).mp ⟨by rw [he]; exact hr, i, hi, rfl⟩) he)
    rw [hins]
    have hn := nulls_set_used (t := u.tab) (T := u.total) (r := r) hi hi0 hr
    have hfree := uinv.free
    have e : ({ u.setTab (u.tab.set i r) with free := u.free - 1 } : RegTable).tab = u.tab.set i r := u.setTab_tab _
    refine ⟨_, rfl, ⟨⟨k, h7, hk, hT⟩, ?_, ?_, ?_, ?_, ?_⟩, ?_⟩
    · rw [e]; exact hinv
    · rw [e]; show u.free - 1 = nulls (u.tab.set i r) u.total; omega
    · show u.total ≤ (u.free - 1) * 4 + 4; omega
    · intro x
      have : (({ u.setTab (u.tab.set i r) with free := u.free - 1 } : RegTable).tabs (!u.cur)) = u.tabs (!u.cur) := by
        simp [RegTable.setTab]
      show ((({ u.setTab (u.tab.set i r) with free := u.free - 1 } : RegTable).tabs (!u.cur)) x).p = 0
      rw [this]; exact uinv.spare x
    · intro x hx
      have hx' : u.total ≤ x := hx
      rw [e, RTab.set_ne _ _ (by omega)]
      exact uinv.outside x hx
    · intro q
      rw [← hu]
      show HM.Has (u.setTab (u.tab.set i r)).tab u.total q ↔ _
      rw [u.setTab_tab]
      exact has_set_used hi hi0 hr
  unfold regionsInsert
  by_cases hg : t.free * 4 < t.total
  · rw [if_pos hg]
    rcases regionsGrow_spec (maxTotal := maxTotal) (protOk := protOk) inv with ⟨h, hc⟩ | ⟨u, hu, uinv, uh, ut, uf⟩
    · left; rw [h]; exact ⟨rfl, by omega, hc⟩
    · right
      rw [hu]
      simp only [Res.bind_ok]
      exact main u uinv uh (by omega)
  · rw [if_neg hg]
    right
    simp only [Res.bind_ok]
    exact main t inv (fun _ => Iff.rfl) (by omega)

end HM
