import Verif.Config
/-
Size classes (h_malloc.c:145-245, 1323-1342, 1447-1452).
-/
namespace HM

/-- h_malloc.c:145-160 `size_classes`, non-extended part. -/
def sizeClassesBase : List Nat :=
  [0, 16, 32, 48, 64, 80, 96, 112, 128,
   160, 192, 224, 256,
   320, 384, 448, 512,
   640, 768, 896, 1024,
   1280, 1536, 1792, 2048,
   2560, 3072, 3584, 4096,
   5120, 6144, 7168, 8192,
   10240, 12288, 14336, 16384]

/-- h_malloc.c:155-159 `size_classes`, entries compiled in with `CONFIG_EXTENDED_SIZE_CLASSES`. -/
def sizeClassesExt : List Nat :=
  [20480, 24576, 28672, 32768,
   40960, 49152, 57344, 65536,
   81920, 98304, 114688, 131072]

/-- h_malloc.c:145-160 `size_classes`. -/
def sizeClasses (g : Cfg) : List Nat :=
  if g.extended then sizeClassesBase ++ sizeClassesExt else sizeClassesBase

/-- h_malloc.c:162-177 `size_class_slots`, non-extended part. -/
def slotsBase : List Nat :=
  [256, 256, 128, 85, 64, 51, 42, 36, 64,
   51, 64, 54, 64,
   64, 64, 64, 64,
   64, 64, 64, 64,
   16, 16, 16, 16,
   8, 8, 8, 8,
   8, 8, 8, 8,
   6, 5, 4, 4]

/-- h_malloc.c:172-176 `size_class_slots`, extended part. -/
def slotsExt : List Nat := [1, 1, 1, 1, 1, 1, 1, 1, 1, 1, 1, 1]

/-- h_malloc.c:162-177 `size_class_slots`. -/
def sizeClassSlots (g : Cfg) : List Nat :=
  if g.extended then slotsBase ++ slotsExt else slotsBase

/-- h_malloc.c:205 `N_SIZE_CLASSES`. -/
def nClasses (g : Cfg) : Nat := if g.extended then 49 else 37

/-- h_malloc.c:207-210 `struct size_info`. -/
structure SizeInfo where
  size : Nat
  cls : Nat
  deriving Repr, DecidableEq

/-- h_malloc.c:212-230 `get_size_info`. -/
def getSizeInfo (size : Nat) : SizeInfo :=
  if size = 0 then ⟨0, 0⟩
  else if size ≤ 128 then ⟨align size 16, (size - 1) / 2 ^ 4 + 1⟩
  else
    let spacingClassShift := log2u64 (size - 1) - 2
    let spacingClass := shl64 1 spacingClassShift
    let realSize := align size spacingClass
    let spacingClassIndex := sub64 (realSize / 2 ^ spacingClassShift) 5
    let index := add64 (add64 (mul64 (sub64 spacingClassShift 4) 4) 5) spacingClassIndex
    ⟨realSize, index⟩

/-- Loop of `get_size_info_align` (h_malloc.c:234-239) over the remaining table entries. -/
def getSizeInfoAlignFrom (size alignment : Nat) : List Nat → Nat → Option SizeInfo
  | [], _ => none
  | realSize :: rest, cls =>
      if size ≤ realSize ∧ realSize &&& (sub64 alignment 1) = 0 then some ⟨realSize, cls⟩
      else getSizeInfoAlignFrom size alignment rest (cls + 1)

/-- h_malloc.c:233-241 `get_size_info_align`; `none` is the `fatal_error("invalid size for slabs")`. The loop
starts at class 1. -/
def getSizeInfoAlign (g : Cfg) (size alignment : Nat) : Option SizeInfo :=
  getSizeInfoAlignFrom size alignment (sizeClasses g).tail 1

/-- h_malloc.c:243-245 `get_slab_size`. -/
def getSlabSize (slots size : Nat) : Nat := pageAlign (mul64 slots size)

/-- h_malloc.c:1324-1338 `get_large_size_class`. -/
def getLargeSizeClass (g : Cfg) (size : Nat) : Nat :=
  if g.largeClasses then (getSizeInfo (max size PAGE)).size
  else pageAlign size

/-- h_malloc.c:1447-1452 `adjust_size_for_canary`. -/
def adjustSizeForCanary (g : Cfg) (size : Nat) : Nat :=
  if 0 < size ∧ size ≤ g.maxSlab then size + g.canarySize else size

/-! ### Helper lemmas -/

theorem sizeClasses_length (g : Cfg) : (sizeClasses g).length = nClasses g := by
  unfold sizeClasses nClasses; split <;> rfl

theorem sizeClassSlots_length (g : Cfg) : (sizeClassSlots g).length = nClasses g := by
  unfold sizeClassSlots nClasses; split <;> rfl

/-- `get_size_info` above 128 bytes in terms of the spacing `D = 2^(k-2)` where `k = log2 (size-1)`. -/
theorem getSizeInfo_gt {n : Nat} (h : 128 < n) (hw : n < W64) :
    ∃ j, 5 ≤ j ∧ j ≤ 61 ∧ 4 * 2 ^ j < n ∧ n ≤ 8 * 2 ^ j ∧
      (getSizeInfo n).size = (n + (2 ^ j - 1)) % W64 / 2 ^ j * 2 ^ j ∧
      (getSizeInfo n).cls =
        add64 (add64 (mul64 (sub64 j 4) 4) 5) (sub64 ((n + (2 ^ j - 1)) % W64 / 2 ^ j) 5) := by
  have hn0 : n - 1 ≠ 0 := by omega
  have hlt : n - 1 < W64 := by omega
  have hlog := log2u64_eq hn0 hlt
  obtain ⟨h1, h2⟩ := log2_bounds hn0
  have hk64 : Nat.log2 (n - 1) < 64 := (Nat.log2_lt hn0).2 hlt
  have hk7 : 7 ≤ Nat.log2 (n - 1) := by
    have : ¬ Nat.log2 (n - 1) < 7 := by
      rw [Nat.log2_lt hn0]; omega
    omega
  refine ⟨Nat.log2 (n - 1) - 2, by omega, by omega, ?_, ?_, ?_, ?_⟩
  · have : 2 ^ Nat.log2 (n - 1) = 4 * 2 ^ (Nat.log2 (n - 1) - 2) := by
      have e : Nat.log2 (n - 1) = (Nat.log2 (n - 1) - 2) + 2 := by omega
      rw [e, Nat.pow_add]; simp [Nat.mul_comm]
    omega
  · have : 2 ^ (Nat.log2 (n - 1) + 1) = 8 * 2 ^ (Nat.log2 (n - 1) - 2) := by
      have e : Nat.log2 (n - 1) + 1 = (Nat.log2 (n - 1) - 2) + 3 := by omega
      rw [e, Nat.pow_add]; simp [Nat.mul_comm]
    omega
  all_goals
    have hshl : shl64 1 (Nat.log2 (n - 1) - 2) = 2 ^ (Nat.log2 (n - 1) - 2) := by
      unfold shl64
      rw [Nat.one_mul]
      apply Nat.mod_eq_of_lt
      exact (Nat.pow_lt_pow_right (by decide) (by omega) : 2 ^ (Nat.log2 (n - 1) - 2) < 2 ^ 64)
    unfold getSizeInfo
    rw [if_neg (by omega), if_neg (by omega)]
    simp only [hlog, hshl]
    rw [align_eq _ _ (by omega)]
  rw [Nat.mul_div_cancel _ (Nat.two_pow_pos _)]

theorem div_bounds {n D : Nat} (hD : 0 < D) (h1 : 4 * D < n) (h2 : n ≤ 8 * D) :
    5 ≤ (n + (D - 1)) / D ∧ (n + (D - 1)) / D ≤ 8 ∧
    n ≤ (n + (D - 1)) / D * D ∧ (n + (D - 1)) / D * D < n + D := by
  have a : (n + (D - 1)) / D * D ≤ n + (D - 1) := Nat.div_mul_le_self _ _
  have b : n + (D - 1) < ((n + (D - 1)) / D + 1) * D := by
    rw [Nat.mul_comm]; exact Nat.lt_mul_div_succ _ hD
  rw [Nat.add_mul, Nat.one_mul] at b
  refine ⟨?_, ?_, by omega, by omega⟩
  · rw [Nat.le_div_iff_mul_le hD]; omega
  · rw [← Nat.lt_succ_iff, Nat.div_lt_iff_lt_mul hD]; omega

theorem getSizeInfo_le128 {n : Nat} (h0 : 0 < n) (h : n ≤ 128) :
    getSizeInfo n = ⟨(n + 15) / 16 * 16, (n - 1) / 16 + 1⟩ := by
  unfold getSizeInfo
  rw [if_neg (by omega), if_pos h]
  have := align_of_lt n 4 (by decide) (by omega)
  simpa using this

end HM
