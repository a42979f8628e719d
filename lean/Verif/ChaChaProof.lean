import Verif.ChaCha
import Verif.ChaChaSpec
import Mathlib.Tactic.FinCases
import Mathlib.Tactic.IntervalCases
/-
The model of chacha.c computes the keystream of the specification.
-/
namespace HM
open ChaCha8

/-- The words as a matrix. -/
def Words.state (x : Words) : State := fun i j =>
  match i, j with
  | 0, 0 => x.w0 | 0, 1 => x.w1 | 0, 2 => x.w2 | 0, 3 => x.w3
  | 1, 0 => x.w4 | 1, 1 => x.w5 | 1, 2 => x.w6 | 1, 3 => x.w7
  | 2, 0 => x.w8 | 2, 1 => x.w9 | 2, 2 => x.w10 | 2, 3 => x.w11
  | 3, 0 => x.w12 | 3, 1 => x.w13 | 3, 2 => x.w14 | 3, 3 => x.w15

theorem quarterRound_eq (a b c d : BitVec 32) : quarterRound a b c d = quarter (a, b, c, d) := rfl

theorem twoRounds_eq (x : Words) : (twoRounds x).state = diagonalRound (columnRound x.state) := by
  funext i j
  fin_cases i <;> fin_cases j <;> rfl

theorem rounds_eq (x : Words) : (roundsLoop 8 x).state = rounds x.state := by
  simp only [roundsLoop, rounds, Function.iterate_succ, Function.iterate_zero, Function.comp_apply, twoRounds_eq, id]

theorem blockWords_eq (x : Words) (i j : Fin 4) : (blockWords x).state i j = rounds x.state i j + x.state i j := by
  rw [← rounds_eq]
  fin_cases i <;> fin_cases j <;> rfl

/-- The bytes of sixteen words. -/
def wordsBytes (x : Words) : List (BitVec 8) :=
  u32to8 x.w0 ++ u32to8 x.w1 ++ u32to8 x.w2 ++ u32to8 x.w3 ++ u32to8 x.w4 ++ u32to8 x.w5 ++ u32to8 x.w6 ++ u32to8 x.w7 ++
    u32to8 x.w8 ++ u32to8 x.w9 ++ u32to8 x.w10 ++ u32to8 x.w11 ++ u32to8 x.w12 ++ u32to8 x.w13 ++ u32to8 x.w14 ++ u32to8 x.w15

theorem blockBytes_eq (x : Words) : blockBytes x = wordsBytes (blockWords x) := by
  unfold blockBytes wordsBytes
  generalize blockWords x = y
  rfl

theorem wordsBytes_length (x : Words) : (wordsBytes x).length = 64 := by simp [wordsBytes, u32to8]

theorem blockBytes_length (x : Words) : (blockBytes x).length = 64 := by rw [blockBytes_eq, wordsBytes_length]

theorem byte_eq (v : BitVec 32) (k : Nat) : (v >>> k).setWidth 8 = v.extractLsb' k 8 := by
  apply BitVec.eq_of_toNat_eq
  simp [BitVec.extractLsb']

theorem byte_eq0 (v : BitVec 32) : v.setWidth 8 = v.extractLsb' 0 8 := by
  apply BitVec.eq_of_toNat_eq
  simp [BitVec.extractLsb']

theorem flatMap_get (l : List (BitVec 32)) (q r : Nat) (hr : r < 4) :
    (l.flatMap u32to8)[4 * q + r]? = l[q]?.map fun v => v.extractLsb' (8 * r) 8 := by
  induction l generalizing q with
  | nil => rfl
  | cons v l ih =>
    rw [List.flatMap_cons]
    have hl : (u32to8 v).length = 4 := rfl
    cases q with
    | zero =>
      rw [List.getElem?_append_left (by omega)]
      simp only [u32to8, byte_eq]
      simp only [byte_eq0]
      interval_cases r <;> rfl
    | succ q =>
      rw [List.getElem?_append_right (by omega), hl, show 4 * (q + 1) + r - 4 = 4 * q + r by omega, ih, List.getElem?_cons_succ]

/-- The words as a list. -/
def Words.list (x : Words) : List (BitVec 32) :=
  [x.w0, x.w1, x.w2, x.w3, x.w4, x.w5, x.w6, x.w7, x.w8, x.w9, x.w10, x.w11, x.w12, x.w13, x.w14, x.w15]

theorem Words.list_get (x : Words) (q : Nat) (h : q < 16) : x.list[q]? = some (x.state (Fin.ofNat 4 (q / 4)) (Fin.ofNat 4 (q % 4))) := by
  interval_cases q <;> rfl

theorem wordsBytes_list (x : Words) : wordsBytes x = x.list.flatMap u32to8 := by
  simp only [wordsBytes, Words.list, List.flatMap_cons, List.flatMap_nil, List.append_assoc, List.append_nil]

theorem wordsBytes_get (x : Words) (n : Nat) (h : n < 64) :
    (wordsBytes x)[n]? = some ((x.state (Fin.ofNat 4 (n / 16)) (Fin.ofNat 4 (n % 16 / 4))).extractLsb' (8 * (n % 4)) 8) := by
  have h1 := flatMap_get x.list (n / 4) (n % 4) (Nat.mod_lt _ (by decide))
  rw [Nat.div_add_mod, Words.list_get x _ (by omega), show n / 4 / 4 = n / 16 by omega, show n / 4 % 4 = n % 16 / 4 by omega] at h1
  rw [wordsBytes_list, h1]; rfl

theorem u8to32_eq (p : List (BitVec 8)) (n : Nat) : u8to32 p (4 * n) = word (fun i => p.getD i 0) n := by
  unfold u8to32 word
  beta_reduce
  generalize p.getD (4 * n) 0 = a
  generalize p.getD (4 * n + 1) 0 = b
  generalize p.getD (4 * n + 2) 0 = c
  generalize p.getD (4 * n + 3) 0 = d
  apply BitVec.eq_of_getLsbD_eq
  intro i hi
  simp only [BitVec.getLsbD_append, BitVec.getLsbD_or, BitVec.getLsbD_shiftLeft, BitVec.getLsbD_setWidth]
  interval_cases i <;> simp

/-- The context for a seed (32 bytes of key, 8 bytes of nonce) and a block counter. -/
def ctxOf (seed : List (BitVec 8)) (ctr : Nat) : Words :=
  { keySetup (ivSetup ⟨0, 0, 0, 0, 0, 0, 0, 0, 0, 0, 0, 0, 0, 0, 0, 0⟩ (seed.drop 32)) seed with
    w12 := BitVec.ofNat 32 ctr, w13 := BitVec.ofNat 32 (ctr / 2 ^ 32) }

theorem ctxOf_state (seed : List (BitVec 8)) (ctr : Nat) :
    (ctxOf seed ctr).state = input (fun i => seed.getD i 0) (fun i => seed.getD (32 + i) 0) (BitVec.ofNat 64 ctr) := by
  have hd : ∀ n, u8to32 (seed.drop 32) (4 * n) = word (fun i => seed.getD (32 + i) 0) n := fun n => by
    rw [u8to32_eq]
    simp only [word, List.getD_eq_getElem?_getD, List.getElem?_drop]
  funext i j
  fin_cases i <;> fin_cases j
  case «3».«0» =>
    show BitVec.ofNat 32 ctr = (BitVec.ofNat 64 ctr).setWidth 32
    apply BitVec.eq_of_toNat_eq; simp
  case «3».«1» =>
    show BitVec.ofNat 32 (ctr / 2 ^ 32) = ((BitVec.ofNat 64 ctr) >>> 32).setWidth 32
    apply BitVec.eq_of_toNat_eq
    simp only [BitVec.toNat_ofNat, BitVec.toNat_setWidth, BitVec.toNat_ushiftRight, Nat.shiftRight_eq_div_pow]
    omega
  case «3».«2» => exact hd 0
  case «3».«3» => exact hd 1
  case «1».«0» => exact u8to32_eq seed 0
  case «1».«1» => exact u8to32_eq seed 1
  case «1».«2» => exact u8to32_eq seed 2
  case «1».«3» => exact u8to32_eq seed 3
  case «2».«0» => exact u8to32_eq seed 4
  case «2».«1» => exact u8to32_eq seed 5
  case «2».«2» => exact u8to32_eq seed 6
  case «2».«3» => exact u8to32_eq seed 7
  case «0».«0» => exact (by decide : u8to32 sigma 0 = 0x61707865#32)
  case «0».«1» => exact (by decide : u8to32 sigma 4 = 0x3320646e#32)
  case «0».«2» => exact (by decide : u8to32 sigma 8 = 0x79622d32#32)
  case «0».«3» => exact (by decide : u8to32 sigma 12 = 0x6b206574#32)

/-- One block is 64 bytes of the keystream. -/
theorem blockBytes_stream (seed : List (BitVec 8)) (ctr n : Nat) (h : n < 64) :
    (blockBytes (ctxOf seed ctr))[n]? = some (ofSeed seed (64 * ctr + n)) := by
  rw [blockBytes_eq, wordsBytes_get _ _ h, blockWords_eq, ctxOf_state]
  unfold ofSeed keystream block
  rw [show (64 * ctr + n) / 64 = ctr by omega, show (64 * ctr + n) % 64 = n by omega, show (64 * ctr + n) % 16 = n % 16 by omega,
    show (64 * ctr + n) % 4 = n % 4 by omega]

theorem nextBlock_ctx (seed : List (BitVec 8)) (ctr : Nat) : nextBlock (ctxOf seed ctr) = ctxOf seed (ctr + 1) := by
  have h1 : BitVec.ofNat 32 ctr + 1 = BitVec.ofNat 32 (ctr + 1) := by
    apply BitVec.eq_of_toNat_eq; simp
  have h2 : BitVec.ofNat 32 (ctr / 2 ^ 32) + 1 = BitVec.ofNat 32 (ctr / 2 ^ 32 + 1) := by
    apply BitVec.eq_of_toNat_eq; simp
  unfold nextBlock
  show (if BitVec.ofNat 32 ctr + 1 = 0 then _ else _) = _
  rw [h1]
  by_cases k : BitVec.ofNat 32 (ctr + 1) = 0
  · rw [if_pos k]
    have k' : (ctr + 1) % 2 ^ 32 = 0 := by
      have := congrArg BitVec.toNat k
      simpa using this
    have e : (ctr + 1) / 2 ^ 32 = ctr / 2 ^ 32 + 1 := by omega
    unfold ctxOf
    simp only [h1, h2, e]
  · rw [if_neg k]
    have k' : (ctr + 1) % 2 ^ 32 ≠ 0 := fun h => k (by apply BitVec.eq_of_toNat_eq; simpa using h)
    have e : (ctr + 1) / 2 ^ 32 = ctr / 2 ^ 32 := by omega
    unfold ctxOf
    simp only [h1, e]

/-- The positions `p`, …, `p + n - 1` of the keystream. -/
theorem keystreamLoop_spec (seed : List (BitVec 8)) (ctr n : Nat) (h : 0 < n) :
    keystreamLoop (ctxOf seed ctr) n = (ctxOf seed (ctr + (n + 63) / 64), (List.range' (64 * ctr) n).map (ofSeed seed)) := by
  have hb : ∀ c, blockBytes (ctxOf seed c) = (List.range' (64 * c) 64).map (ofSeed seed) := fun c => by
    apply List.ext_getElem?
    intro i
    by_cases hi : i < 64
    · rw [blockBytes_stream _ _ _ hi]
      simp [hi]
    · rw [List.getElem?_eq_none (by rw [blockBytes_length]; omega), List.getElem?_eq_none (by simp; omega)]
  induction n using Nat.strong_induction_on generalizing ctr with
  | _ n ih =>
    rw [keystreamLoop]
    by_cases k : n ≤ 64
    · rw [if_pos k, nextBlock_ctx, hb, ← List.map_take, List.take_range'_of_length_ge k, show (n + 63) / 64 = 1 by omega]
    · rw [if_neg k, nextBlock_ctx, ih (n - 64) (by omega) _ (by omega), hb]
      simp only [← List.map_append]
      rw [show ctr + 1 + (n - 64 + 63) / 64 = ctr + (n + 63) / 64 by omega, show 64 * (ctr + 1) = 64 * ctr + 64 by omega,
        List.range'_append_1, show 64 + (n - 64) = n by omega]

theorem keystreamBytes_spec (seed : List (BitVec 8)) (ctr n : Nat) :
    keystreamBytes (ctxOf seed ctr) n = (ctxOf seed (ctr + (n + 63) / 64), (List.range' (64 * ctr) n).map (ofSeed seed)) := by
  unfold keystreamBytes
  by_cases k : n = 0
  · subst k; rfl
  · rw [if_neg k, keystreamLoop_spec _ _ _ (by omega)]

/-- `chacha_keysetup` and `chacha_ivsetup` make the context for the seed with counter 0, whatever the context was before. -/
theorem setup_spec (x : Words) (seed : List (BitVec 8)) : ivSetup (keySetup x seed) (seed.drop 32) = ctxOf seed 0 := rfl

end HM
