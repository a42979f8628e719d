import Verif.Util
/-
Slab bitmaps and free-slot search (h_malloc.c:343-421, util.h:39-43).
-/
namespace HM

/-- The C array `u64 bitmap[4]`: word index to word. Only words 0..3 exist; callers that could index past word 3 check
`slot < 256` and report undefined behaviour otherwise. -/
abbrev Bitmap := Nat → BitVec 64

/-- Freshly zeroed bitmap. -/
def Bitmap.zero : Bitmap := fun _ => 0#64

/-- Array store `bitmap[b] = w`. -/
def Bitmap.store (bm : Bitmap) (b : Nat) (w : BitVec 64) : Bitmap := fun i => if i = b then w else bm i

/-- h_malloc.c:343-349, 365-368 `set_used_slot`/`set_quarantine_slot` on the bitmap. -/
def Bitmap.set (bm : Bitmap) (index : Nat) : Bitmap :=
  let bucket := index / 64
  bm.store bucket (bm bucket ||| (1#64 <<< (index - bucket * 64)))

/-- h_malloc.c:351-357, 370-373 `clear_used_slot`/`clear_quarantine_slot` on the bitmap. -/
def Bitmap.clear (bm : Bitmap) (index : Nat) : Bitmap :=
  let bucket := index / 64
  bm.store bucket (bm bucket &&& ~~~(1#64 <<< (index - bucket * 64)))

/-- h_malloc.c:359-362, 375-378 `is_used_slot`/`is_quarantine_slot`. -/
def Bitmap.get (bm : Bitmap) (index : Nat) : Bool :=
  let bucket := index / 64
  decide ((bm bucket >>> (index - bucket * 64)) &&& 1#64 ≠ 0#64)

/-- util.h:41-43 `ffz64` = `__builtin_ffsll(~x)`: one plus the index of the lowest zero bit, 0 if there is none. -/
def ffz64 (x : BitVec 64) : Nat :=
  match (List.range 64).find? (fun k => !x.getLsbD k) with
  | some k => k + 1
  | none => 0

/-- h_malloc.c:381-383 `get_mask`. -/
def getMask (slots : Nat) : BitVec 64 :=
  if slots < 64 then BitVec.allOnes 64 <<< slots else 0#64

/-- h_malloc.c:396-398: in the last, partially used word the bits past the end of the slab are set. -/
def maskTail (slots i : Nat) (masked : BitVec 64) : BitVec 64 :=
  if i = slots / 64 then masked ||| getMask (slots - i * 64) else masked

/-- h_malloc.c:410-412: the same for the linear search. -/
def maskTailLinear (slots i : Nat) (masked : BitVec 64) : BitVec 64 :=
  if i = (slots - 1) / 64 then masked ||| getMask (slots - i * 64) else masked

/-- h_malloc.c:395-406: the `for (;;)` loop of `get_free_slot`. `fuel` bounds the number of iterations; `none` means
that the loop has not ended after that many iterations. -/
def freeSlotLoop (slots : Nat) (bm : Bitmap) : Nat → Nat → BitVec 64 → Option Nat
  | 0, _, _ => none
  | fuel + 1, i, masked =>
      if maskTail slots i masked ≠ BitVec.allOnes 64 then some (ffz64 (maskTail slots i masked) - 1 + i * 64)
      else
        let i' := if i = (slots - 1) / 64 then 0 else i + 1
        freeSlotLoop slots bm fuel i' (bm i')

/-- h_malloc.c:387-406: `get_free_slot` with `SLOT_RANDOMIZE`, given the random start index. -/
def getFreeSlotRandom (fuel slots randomIndex : Nat) (bm : Bitmap) : Option Nat :=
  let firstBitmap := randomIndex / 64
  let randomSplit := ~~~(BitVec.allOnes 64 <<< (randomIndex - firstBitmap * 64))
  freeSlotLoop slots bm fuel firstBitmap (bm firstBitmap ||| randomSplit)

/-- h_malloc.c:408-417: `get_free_slot` without `SLOT_RANDOMIZE`; `n` is the number of words left, `none` is
`fatal_error("no zero bits")`. -/
def getFreeSlotLinear (slots : Nat) (bm : Bitmap) : Nat → Nat → Option Nat
  | 0, _ => none
  | n + 1, i =>
      if maskTailLinear slots i (bm i) ≠ BitVec.allOnes 64 then
        some (ffz64 (maskTailLinear slots i (bm i)) - 1 + i * 64)
      else getFreeSlotLinear slots bm n (i + 1)

/-- h_malloc.c:385-421 `get_free_slot`. `none`: no slot is returned (the randomized loop does not end, the linear one
aborts with "no zero bits"). Five iterations suffice for the randomized loop, see `freeSlot_none_of_full` and
`c33_total`. -/
def getFreeSlot (randomize : Bool) (slots randomIndex : Nat) (bm : Bitmap) : Option Nat :=
  if randomize then getFreeSlotRandom 5 slots randomIndex bm
  else getFreeSlotLinear slots bm ((slots - 1) / 64 + 1) 0

/-! ### Helper lemmas -/

/-- Mathematical view of a bitmap: bit `i`. -/
def Bitmap.bit (bm : Bitmap) (i : Nat) : Bool := (bm (i / 64)).getLsbD (i % 64)

theorem bm_idx (i : Nat) : i - i / 64 * 64 = i % 64 := by omega

theorem Bitmap.get_eq (bm : Bitmap) (i : Nat) : bm.get i = bm.bit i := by
  unfold Bitmap.get Bitmap.bit
  simp only [bm_idx]
  have hlt : i % 64 < 64 := Nat.mod_lt _ (by decide)
  rw [Bool.eq_iff_iff, decide_eq_true_iff]
  constructor
  · intro h
    by_contra hc
    apply h
    apply BitVec.eq_of_getLsbD_eq
    intro k hk
    simp only [BitVec.getLsbD_and, BitVec.getLsbD_ushiftRight, BitVec.getLsbD_one, BitVec.getLsbD_zero]
    by_cases hk0 : k = 0
    · subst hk0; simpa using hc
    · simp [hk0]
  · intro h hz
    have := congrArg (fun b => b.getLsbD 0) hz
    simp at this
    rw [this] at h; exact absurd h (by decide)

theorem Bitmap.bit_set (bm : Bitmap) (i k : Nat) :
    (bm.set i).bit k = (decide (k = i) || bm.bit k) := by
  unfold Bitmap.set Bitmap.bit Bitmap.store
  simp only [bm_idx]
  by_cases h : k / 64 = i / 64
  · rw [if_pos h, h]
    simp only [BitVec.getLsbD_or, BitVec.getLsbD_shiftLeft, BitVec.getLsbD_one]
    by_cases hk : k = i
    · subst hk
      simp [Nat.mod_lt]
    · have : k % 64 ≠ i % 64 := by omega
      have hkl : k % 64 < 64 := Nat.mod_lt _ (by decide)
      simp only [hk, decide_false, Bool.false_or]
      by_cases hlt : k % 64 < i % 64
      · simp [hlt]
      · have : ¬ (k % 64 - i % 64 = 0) := by omega
        simp [this]
  · rw [if_neg h]
    have : k ≠ i := fun e => h (by rw [e])
    simp [this]

theorem Bitmap.bit_clear (bm : Bitmap) (i k : Nat) :
    (bm.clear i).bit k = (!decide (k = i) && bm.bit k) := by
  unfold Bitmap.clear Bitmap.bit Bitmap.store
  simp only [bm_idx]
  by_cases h : k / 64 = i / 64
  · rw [if_pos h, h]
    have hkl : k % 64 < 64 := Nat.mod_lt _ (by decide)
    simp only [BitVec.getLsbD_and, BitVec.getLsbD_not, BitVec.getLsbD_shiftLeft, BitVec.getLsbD_one]
    by_cases hk : k = i
    · subst hk
      simp [hkl]
    · have : k % 64 ≠ i % 64 := by omega
      simp only [hk, decide_false, hkl]
      by_cases hlt : k % 64 < i % 64
      · simp [hlt]
      · have : ¬ (k % 64 - i % 64 = 0) := by omega
        simp [this]
  · rw [if_neg h]
    have : k ≠ i := fun e => h (by rw [e])
    simp [this]

theorem Bitmap.bit_zero (i : Nat) : Bitmap.zero.bit i = false := by simp [Bitmap.zero, Bitmap.bit]

/-- `ffz64` finds the lowest zero bit. -/
theorem ffz64_spec {x : BitVec 64} (h : x ≠ BitVec.allOnes 64) :
    1 ≤ ffz64 x ∧ ffz64 x - 1 < 64 ∧ x.getLsbD (ffz64 x - 1) = false ∧
    ∀ k, k < ffz64 x - 1 → x.getLsbD k = true := by
  unfold ffz64
  cases hf : (List.range 64).find? (fun k => !x.getLsbD k) with
  | none =>
    exfalso; apply h
    rw [List.find?_eq_none] at hf
    apply BitVec.eq_of_getLsbD_eq
    intro k hk
    have := hf k (List.mem_range.2 hk)
    have h1 : x.getLsbD k = true := by simpa using this
    rw [h1, BitVec.getLsbD_allOnes]; simp [hk]
  | some k =>
    have h1 := List.find?_some hf
    have h2 := List.mem_range.1 (List.mem_of_find?_eq_some hf)
    simp at h1
    refine ⟨Nat.le_add_left _ _, by simpa using h2, by simpa using h1, ?_⟩
    intro m hm
    simp only [Nat.add_sub_cancel] at hm
    rw [List.find?_range_eq_some] at hf
    have := hf.2.2 m hm
    simpa using this

end HM
