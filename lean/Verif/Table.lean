import Verif.Util
import Verif.Res
/-
The open-addressing hash table of large allocations (h_malloc.c:913-917, 1017-1119).
The hash function is a parameter: nothing below depends on which function it is.
-/
namespace HM

/-- h_malloc.c:913-917 `struct region_metadata`; `p = 0` is NULL (an unused entry). -/
structure RegionMeta where
  p : Nat
  size : Nat
  guard : Nat
  deriving Repr, DecidableEq

/-- An all-zero entry (fresh zero pages). -/
def RegionMeta.empty : RegionMeta := ⟨0, 0, 0⟩

/-- The array `struct region_metadata *regions`. -/
abbrev RTab := Nat → RegionMeta

/-- A table in fresh zero pages. -/
def RTab.empty : RTab := fun _ => RegionMeta.empty

/-- Array store `regions[i] = r`. -/
def RTab.set (t : RTab) (i : Nat) (r : RegionMeta) : RTab := fun k => if k = i then r else t k

/-- `(index - 1) & mask` with `mask = total - 1`. -/
def prevIdx (total i : Nat) : Nat := sub64 i 1 &&& (total - 1)

/-- The probe loops `while (!stop(index)) index = (index - 1) & mask;` of h_malloc.c:1042-1045, 1069-1073, 1087-1090.
`none`: not ended after `fuel` iterations. -/
def scan (total : Nat) (stop : Nat → Bool) : Nat → Nat → Option Nat
  | 0, _ => none
  | fuel + 1, i => if stop i then some i else scan total stop fuel (prevIdx total i)

/-- `hash_page(p) & mask`. -/
def bucket (hash : Nat → Nat) (total p : Nat) : Nat := hash p &&& (total - 1)

/-- h_malloc.c:1081-1092 `regions_find`: `none` if the probe loop does not end, `some none` for NULL, `some (some i)`
for a pointer to entry `i`. -/
def tableFind (hash : Nat → Nat) (t : RTab) (total p : Nat) : Option (Option Nat) :=
  match scan total (fun i => (t i).p == p || (t i).p == 0) total (bucket hash total p) with
  | none => none
  | some i => some (if (t i).p = p ∧ (t i).p ≠ 0 then some i else none)

/-- h_malloc.c:1068-1077: the part of `regions_insert` after the growth check. `none`: the probe loop does not end. -/
def tableInsert (hash : Nat → Nat) (t : RTab) (total : Nat) (r : RegionMeta) : Option RTab :=
  match scan total (fun i => (t i).p == 0) total (bucket hash total r.p) with
  | none => none
  | some i => some (t.set i r)

/-- h_malloc.c:1101-1118: the nested loops of `regions_delete`, flattened. `j` is the entry just cleared, `i` the scan
position. -/
def deleteLoop (hash : Nat → Nat) (total : Nat) : Nat → RTab → Nat → Nat → Option RTab
  | 0, _, _, _ => none
  | fuel + 1, t, j, i =>
      let i := prevIdx total i
      if (t i).p = 0 then some t
      else
        let r := bucket hash total (t i).p
        if (i ≤ r ∧ r < j) ∨ (r < j ∧ j < i) ∨ (j < i ∧ i ≤ r) then deleteLoop hash total fuel t j i
        else
          let t := t.set j (t i)
          let t := t.set i { t i with p := 0, size := 0 }
          deleteLoop hash total fuel t i i

/-- h_malloc.c:1094-1119 `regions_delete` on the table (the counter `free` is handled by the caller). -/
def tableDelete (hash : Nat → Nat) (t : RTab) (total i : Nat) : Option RTab :=
  let t := t.set i { t i with p := 0, size := 0 }
  deleteLoop hash total total t i i

/-- h_malloc.c:1039-1048: the rehash loop of `regions_grow`, for entries `i, i+1, ...` (`n` of them). -/
def rehash (hash : Nat → Nat) (old : RTab) (newtotal : Nat) : Nat → Nat → RTab → Option RTab
  | 0, _, new => some new
  | n + 1, i, new =>
      if (old i).p ≠ 0 then
        match tableInsert hash new newtotal (old i) with
        | none => none
        | some new => rehash hash old newtotal n (i + 1) new
      else rehash hash old newtotal n (i + 1) new

/-- The part of `struct region_allocator` that is the hash table (h_malloc.c:929-931), with its two backing arrays
`ro.regions[0]` and `ro.regions[1]`: `tabs cur` is `ra->regions`. -/
structure RegTable where
  tabs : Bool → RTab
  cur : Bool
  total : Nat
  free : Nat

/-- h_malloc.c:924, 1237-1244: the initial table. -/
def RegTable.init : RegTable := ⟨fun _ => RTab.empty, false, 128, 128⟩

/-- `ra->regions`. -/
def RegTable.tab (t : RegTable) : RTab := t.tabs t.cur

/-- Store the array `ra->regions`. -/
def RegTable.setTab (t : RegTable) (r : RTab) : RegTable :=
  { t with tabs := fun b => if b = t.cur then r else t.tabs b }

/-- h_malloc.c:1017-1056 `regions_grow`. `maxTotal` is MAX_REGION_TABLE_SIZE (h_malloc.c:925). `protOk`: the mprotect of
the other array succeeds. `remapOk`: the `memory_map_fixed` of the old array succeeds; its result is ignored by the code,
and when it fails the old entries stay in place. Only the entries below `ra->total` of the old array are remapped; the
entries above it have never been touched since they were last zero. `none` is a refusal (return 1). -/
def regionsGrow (hash : Nat → Nat) (maxTotal : Nat) (protOk remapOk : Bool) (t : RegTable) : Res (Option RegTable) :=
  if t.total > (W64 - 1) / 24 / 2 then .ok none
  else
    let newtotal := t.total * 2
    if newtotal > maxTotal then .ok none
    else if !protOk then .ok none
    else
      match rehash hash t.tab newtotal t.total 0 (t.tabs (!t.cur)) with
      | none => .hang
      | some new =>
          let old : RTab := if remapOk then (fun i => if i < t.total then RegionMeta.empty else t.tab i) else t.tab
          .ok (some { tabs := fun b => if b = t.cur then old else new, cur := !t.cur, total := newtotal,
                      free := t.free + t.total })

/-- h_malloc.c:1058-1079 `regions_insert`. `none` is a failure (return 1). -/
def regionsInsert (hash : Nat → Nat) (maxTotal : Nat) (protOk remapOk : Bool) (t : RegTable) (r : RegionMeta) :
    Res (Option RegTable) := do
  let t' ← if t.free * 4 < t.total then regionsGrow hash maxTotal protOk remapOk t else .ok (some t)
  match t' with
  | none => .ok none
  | some t =>
      match tableInsert hash t.tab t.total r with
      | none => .hang
      | some tab => .ok (some { t.setTab tab with free := t.free - 1 })

/-- h_malloc.c:1081-1092 `regions_find`, returning the index of the entry. -/
def regionsFind (hash : Nat → Nat) (t : RegTable) (p : Nat) : Res (Option Nat) :=
  match tableFind hash t.tab t.total p with
  | none => .hang
  | some r => .ok r

/-- h_malloc.c:1094-1119 `regions_delete`. -/
def regionsDelete (hash : Nat → Nat) (t : RegTable) (i : Nat) : Res RegTable :=
  match tableDelete hash t.tab t.total i with
  | none => .hang
  | some tab => .ok { t.setTab tab with free := t.free + 1 }

/-! ### Geometry of the probe sequence -/

/-- Number of downward steps from `x` to `i` in a table of `T` entries. -/
def dist (T x i : Nat) : Nat := if i ≤ x then x - i else x + T - i

/-- The entry reached after `d` downward steps from `x`. -/
def downAt (T x d : Nat) : Nat := if d ≤ x then x - d else x + T - d

theorem prevIdx_eq {T i k : Nat} (hT : T = 2 ^ k) (hk : k < 64) (hi : i < T) :
    prevIdx T i = if i = 0 then T - 1 else i - 1 := by
  have hTW : T < W64 := by rw [hT]; exact (Nat.pow_lt_pow_right (by decide) hk : 2 ^ k < 2 ^ 64)
  unfold prevIdx
  rw [hT, Nat.and_two_pow_sub_one_eq_mod, ← hT]
  by_cases h0 : i = 0
  · subst h0
    rw [if_pos rfl, sub64_of_gt (by decide) (by decide)]
    have hdv : T ∣ W64 := by
      rw [hT]; exact (Nat.pow_dvd_pow 2 (by omega) : 2 ^ k ∣ 2 ^ 64)
    obtain ⟨c, hc⟩ := hdv
    have hc1 : 1 ≤ c := by
      rcases Nat.eq_zero_or_pos c with h | h
      · subst h; simp at hc
      · exact h
    have e : 0 + W64 - 1 = (T - 1) + T * (c - 1) := by
      have : T * c = T * (c - 1) + T := by
        conv_lhs => rw [show c = (c - 1) + 1 by omega]
        rw [Nat.mul_add, Nat.mul_one]
      omega
    rw [e, Nat.add_mul_mod_self_left, Nat.mod_eq_of_lt (by omega)]
  · rw [if_neg h0, sub64_of_le (by omega) (by omega), Nat.mod_eq_of_lt (by omega)]

theorem bucket_lt {hash : Nat → Nat} {T k p : Nat} (hT : T = 2 ^ k) : bucket hash T p < T := by
  unfold bucket
  rw [hT, Nat.and_two_pow_sub_one_eq_mod]
  exact Nat.mod_lt _ (Nat.two_pow_pos k)

theorem dist_lt {T x i : Nat} (hx : x < T) (hi : i < T) : dist T x i < T := by
  unfold dist; split <;> omega

theorem downAt_lt {T x d : Nat} (hx : x < T) (hd : d < T) : downAt T x d < T := by
  unfold downAt; split <;> omega

theorem dist_downAt {T x d : Nat} (hx : x < T) (hd : d < T) : dist T x (downAt T x d) = d := by
  unfold dist downAt; split <;> split <;> omega

theorem downAt_dist {T x i : Nat} (hx : x < T) (hi : i < T) : downAt T x (dist T x i) = i := by
  unfold dist downAt; split <;> split <;> omega

theorem downAt_zero (T x : Nat) : downAt T x 0 = x := by simp [downAt]

theorem prevIdx_downAt {T k x d : Nat} (hT : T = 2 ^ k) (hk : k < 64) (hx : x < T) (hd : d + 1 < T) :
    prevIdx T (downAt T x d) = downAt T x (d + 1) := by
  rw [prevIdx_eq hT hk (downAt_lt hx (by omega))]
  unfold downAt
  split <;> split <;> split <;> omega

/-- The probe loop returns the first stopping entry. -/
theorem scan_first {T k x : Nat} (hT : T = 2 ^ k) (hk : k < 64) (hx : x < T) (stop : Nat → Bool) :
    ∀ m d fuel, d + m < T → m < fuel → (∀ e, d ≤ e → e < d + m → stop (downAt T x e) = false) →
      stop (downAt T x (d + m)) = true →
      scan T stop fuel (downAt T x d) = some (downAt T x (d + m)) := by
  intro m
  induction m with
  | zero =>
    intro d fuel hd hf _ hs
    cases fuel with
    | zero => omega
    | succ fuel => unfold scan; simp only [Nat.add_zero] at hs ⊢; rw [if_pos hs]
  | succ m ih =>
    intro d fuel hd hf hns hs
    cases fuel with
    | zero => omega
    | succ fuel =>
      unfold scan
      rw [if_neg (by rw [hns d (by omega) (by omega)]; decide), prevIdx_downAt hT hk hx (by omega)]
      have := ih (d + 1) fuel (by omega) (by omega) (fun e h1 h2 => hns e (by omega) (by omega))
        (by rw [show d + 1 + m = d + (m + 1) by omega]; exact hs)
      rw [this, show d + 1 + m = d + (m + 1) by omega]

/-- If some entry stops the loop, it ends, at the stopping entry closest to the start. -/
theorem scan_some {T k x : Nat} (hT : T = 2 ^ k) (hk : k < 64) (hx : x < T) (stop : Nat → Bool)
    (hex : ∃ z, z < T ∧ stop z = true) :
    ∃ i, i < T ∧ scan T stop T x = some i ∧ stop i = true ∧
      ∀ y, y < T → dist T x y < dist T x i → stop y = false := by
  obtain ⟨z, hz, hsz⟩ := hex
  have hP : ∃ d, d < T ∧ stop (downAt T x d) = true :=
    ⟨dist T x z, dist_lt hx hz, by rw [downAt_dist hx hz]; exact hsz⟩
  classical
  let d := Nat.find hP
  have hd := Nat.find_spec hP
  have hmin : ∀ e, e < d → stop (downAt T x e) = false := by
    intro e he
    have := Nat.find_min hP he
    have hlt : e < T := by have := hd.1; omega
    simp only [not_and, Bool.not_eq_true] at this
    exact this hlt
  refine ⟨downAt T x d, downAt_lt hx hd.1, ?_, hd.2, ?_⟩
  · have := scan_first hT hk hx stop d 0 T (by rw [Nat.zero_add]; exact hd.1) hd.1 (fun e _ h => hmin e (by omega))
      (by rw [Nat.zero_add]; exact hd.2)
    rw [downAt_zero, Nat.zero_add] at this
    exact this
  · intro y hy hlt
    rw [dist_downAt hx hd.1] at hlt
    have := hmin _ hlt
    rwa [downAt_dist hx hy] at this

end HM
