import Verif.Random
import Verif.ChaChaProof
import Mathlib.Data.List.Range
/-
Which positions of which keystream the random generator hands out. The positions depend on the requests only.
-/
namespace HM
open ChaCha8

/-- The generator without the data: the keystream in use is number `e`, `ctr` of its blocks have been generated, the cache
holds the positions from `base`. -/
structure PS where
  e : Nat
  ctr : Nat
  base : Nat
  index : Nat
  reseed : Nat

def PS.refill (p : PS) : PS := if rngReseedSize ≤ p.reseed then ⟨p.e + 1, 4, 0, 0, 256⟩ else ⟨p.e, p.ctr + 4, 64 * p.ctr, 0, p.reseed + 256⟩

def PS.refillIfEmpty (p : PS) : PS := if p.index = 256 then p.refill else p

/-- `n` positions of keystream `e` from `b`. -/
def posFrom (e b n : Nat) : List (Nat × Nat) := (List.range' b n).map fun x => (e, x)

def PS.cached (p : PS) (size : Nat) : PS × List (Nat × Nat) :=
  if size = 0 then (p, [])
  else if p.refillIfEmpty.index < 256 then
    let q := p.refillIfEmpty
    let copy := min size (256 - p.refillIfEmpty.index)
    let r := PS.cached { q with index := q.index + copy } (size - copy)
    (r.1, posFrom q.e (q.base + q.index) copy ++ r.2)
  else (p, [])
termination_by size
decreasing_by omega

def PS.bytes (p : PS) (size : Nat) : PS × List (Nat × Nat) :=
  if 128 < size then ({ p with ctr := p.ctr + (size % 2 ^ 32 + 63) / 64 }, posFrom p.e (64 * p.ctr) (size % 2 ^ 32)) else p.cached size

def PS.value (p : PS) (n : Nat) : PS × List (Nat × Nat) :=
  let q := if 256 - p.index < n then p.refill else p
  ({ q with index := q.index + n }, posFrom q.e (q.base + q.index) n)

def PS.req (p : PS) : RandomReq → PS × List (Nat × Nat)
  | .bytes n => p.bytes n
  | .u16 => p.value 2
  | .u64 => p.value 8

def PS.reqs (p : PS) : List RandomReq → PS × List (Nat × Nat)
  | [] => (p, [])
  | q :: qs => (((p.req q).1.reqs qs).1, (p.req q).2 ++ ((p.req q).1.reqs qs).2)

/-- The generator `r`, whose keystreams are those of the seeds `seed`, is at `p`. -/
structure Sim (os seed : Nat → List (BitVec 8)) (r : Rng) (p : PS) : Prop where
  seeds : ∀ k, os (r.seeds + k) = seed (p.e + 1 + k)
  index : r.index = p.index
  le : p.index ≤ 256
  reseed : r.reseed = p.reseed
  ctx : r.ctx = ctxOf (seed p.e) p.ctr
  cache : p.index < 256 → r.cache = (List.range' p.base 256).map (ofSeed (seed p.e))

section
variable {os seed : Nat → List (BitVec 8)} {r : Rng} {p : PS}

theorem Sim.refill (h : Sim os seed r p) : Sim os seed (r.refill os) p.refill ∧ p.refill.index = 0 := by
  unfold Rng.refill PS.refill
  by_cases k : rngReseedSize ≤ p.reseed
  · have k' : rngReseedSize ≤ r.reseed := by rw [h.reseed]; exact k
    have e0 := h.seeds 0
    simp only [Nat.add_zero] at e0
    simp only [if_pos k, if_pos k']
    refine ⟨⟨fun n => ?_, rfl, Nat.zero_le _, rfl, ?_, fun _ => ?_⟩, trivial⟩
    · show os (r.seeds + 1 + n) = seed (p.e + 1 + 1 + n)
      rw [show r.seeds + 1 + n = r.seeds + (1 + n) by omega, h.seeds (1 + n)]
      congr 1; omega
    · simp only [Rng.init, Rng.setup, setup_spec, e0, keystreamBytes_spec, rngCacheSize]
    · simp only [Rng.init, Rng.setup, setup_spec, e0, keystreamBytes_spec, rngCacheSize]
  · have k' : ¬ rngReseedSize ≤ r.reseed := by rw [h.reseed]; exact k
    simp only [if_neg k, if_neg k']
    refine ⟨⟨h.seeds, rfl, Nat.zero_le _, by simp [h.reseed, rngCacheSize], ?_, fun _ => ?_⟩, trivial⟩
    · simp only [h.ctx, keystreamBytes_spec, rngCacheSize]
    · simp only [h.ctx, keystreamBytes_spec, rngCacheSize]

theorem Sim.refillIfEmpty (h : Sim os seed r p) : Sim os seed (r.refillIfEmpty os) p.refillIfEmpty ∧ p.refillIfEmpty.index < 256 := by
  unfold Rng.refillIfEmpty PS.refillIfEmpty
  by_cases k : p.index = 256
  · have k' : r.index = rngCacheSize := by rw [h.index]; exact k
    rw [if_pos k, if_pos k']
    exact ⟨h.refill.1, by rw [h.refill.2]; decide⟩
  · have k' : ¬ r.index = rngCacheSize := by rw [h.index]; exact k
    rw [if_neg k, if_neg k']
    have := h.le
    exact ⟨h, by omega⟩

theorem Sim.take (h : Sim os seed r p) {n : Nat} (hn : 0 < n) (hle : p.index + n ≤ 256) :
    (r.cache.drop r.index).take n = (posFrom p.e (p.base + p.index) n).map fun x => ofSeed (seed x.1) x.2 := by
  rw [h.cache (by omega), h.index]
  apply List.ext_getElem?
  intro i
  by_cases hi : i < n
  · have h1 : p.index + i < 256 := by omega
    simp [posFrom, hi, List.getElem?_drop, h1, Nat.add_assoc]
  · rw [List.getElem?_eq_none (by simp; omega), List.getElem?_eq_none (by simp [posFrom]; omega)]

theorem Sim.advance (h : Sim os seed r p) {n : Nat} (hle : p.index + n ≤ 256) :
    Sim os seed { r with index := r.index + n } { p with index := p.index + n } :=
  ⟨h.seeds, by simp only [h.index], hle, h.reseed, h.ctx, fun hlt => h.cache (by have : p.index + n < 256 := hlt; omega)⟩

/-- The bytes handed out are at these positions of the keystreams. -/
def Outs (seed : Nat → List (BitVec 8)) (os : Nat → List (BitVec 8)) (x : Res (Rng × List (BitVec 8))) (y : PS × List (Nat × Nat)) : Prop :=
  ∃ r', x = .ok (r', y.2.map fun x => ofSeed (seed x.1) x.2) ∧ Sim os seed r' y.1

theorem Sim.cached (h : Sim os seed r p) (size : Nat) : Outs seed os (r.cached os size) (p.cached size) := by
  induction size using Nat.strong_induction_on generalizing r p with
  | _ size ih =>
    rw [Rng.cached, PS.cached]
    by_cases k : size = 0
    · rw [if_pos k, if_pos k]; exact ⟨r, rfl, h⟩
    · obtain ⟨h1, h2⟩ := h.refillIfEmpty
      have h3 : (r.refillIfEmpty os).index < rngCacheSize := by rw [h1.index]; exact h2
      rw [if_neg k, if_neg k, if_pos h2, if_pos h3]
      have e : min size (rngCacheSize - (r.refillIfEmpty os).index) = min size (256 - p.refillIfEmpty.index) := by rw [h1.index]; rfl
      simp only [e]
      have hle : p.refillIfEmpty.index + min size (256 - p.refillIfEmpty.index) ≤ 256 := by omega
      obtain ⟨r', h4, h5⟩ := ih (size - min size (256 - p.refillIfEmpty.index)) (by omega) (h1.advance hle)
      rw [h4]
      refine ⟨r', ?_, h5⟩
      simp only [List.map_append]
      rw [h1.take (by omega) hle]

theorem Sim.bytes (h : Sim os seed r p) (size : Nat) : Outs seed os (r.bytes os size) (p.bytes size) := by
  unfold Rng.bytes PS.bytes
  by_cases k : 128 < size
  · have k' : rngCacheSize / 2 < size := k
    rw [if_pos k, if_pos k']
    simp only [h.ctx, keystreamBytes_spec]
    refine ⟨{ r with ctx := ctxOf (seed p.e) (p.ctr + (size % 2 ^ 32 + 63) / 64) }, ?_, h.seeds, h.index, h.le, h.reseed, rfl, h.cache⟩
    simp [posFrom, Function.comp_def]
  · have k' : ¬ rngCacheSize / 2 < size := k
    rw [if_neg k, if_neg k']
    exact h.cached size

theorem Sim.value (h : Sim os seed r p) {n : Nat} (h0 : 0 < n) (hn : n ≤ 256) : Outs seed os (r.value os n) (p.value n) := by
  unfold Rng.value PS.value
  have hs : Sim os seed (if rngCacheSize - r.index < n then r.refill os else r) (if 256 - p.index < n then p.refill else p) ∧
      (if 256 - p.index < n then p.refill else p).index + n ≤ 256 := by
    have e : rngCacheSize - r.index = 256 - p.index := by rw [h.index]; rfl
    rw [e]
    by_cases k : 256 - p.index < n
    · rw [if_pos k, if_pos k]; exact ⟨h.refill.1, by rw [h.refill.2]; omega⟩
    · rw [if_neg k, if_neg k]; exact ⟨h, by have := h.le; omega⟩
  obtain ⟨h1, h2⟩ := hs
  have h3 : (if rngCacheSize - r.index < n then r.refill os else r).index + n ≤ rngCacheSize := by rw [h1.index]; exact h2
  simp only [if_pos h3]
  exact ⟨_, by rw [h1.take h0 h2], h1.advance h2⟩

theorem Sim.req (h : Sim os seed r p) (q : RandomReq) : Outs seed os (r.req os q) (p.req q) := by
  cases q with
  | bytes n => exact h.bytes n
  | u16 => exact h.value (by decide) (by decide)
  | u64 => exact h.value (by decide) (by decide)

theorem Sim.reqs (h : Sim os seed r p) (qs : List RandomReq) : Outs seed os (r.reqs os qs) (p.reqs qs) := by
  induction qs generalizing r p with
  | nil => exact ⟨r, rfl, h⟩
  | cons q qs ih =>
    obtain ⟨r1, h1, h2⟩ := h.req q
    obtain ⟨r2, h3, h4⟩ := ih h2
    refine ⟨r2, ?_, h4⟩
    unfold Rng.reqs
    rw [h1]
    simp only [h3]
    rw [PS.reqs, List.map_append]

end

/-! ### The positions -/

/-- The positions `used` have been handed out before `p`. -/
structure Used (p : PS) (used : List (Nat × Nat)) : Prop where
  nodup : used.Nodup
  le : p.index ≤ 256
  base : p.index < 256 → p.base + 256 ≤ 64 * p.ctr
  old : ∀ x ∈ used, x.1 ≤ p.e ∧ (x.1 = p.e → x.2 < 64 * p.ctr ∧ (p.index < 256 → x.2 < p.base + p.index ∨ p.base + 256 ≤ x.2))

theorem mem_posFrom {e b n : Nat} {x : Nat × Nat} : x ∈ posFrom e b n ↔ x.1 = e ∧ b ≤ x.2 ∧ x.2 < b + n := by
  obtain ⟨a, c⟩ := x
  simp only [posFrom, List.mem_map, List.mem_range'_1, Prod.mk.injEq]
  constructor
  · rintro ⟨y, h, rfl, rfl⟩; exact ⟨rfl, h⟩
  · rintro ⟨rfl, h⟩; exact ⟨c, h, rfl, rfl⟩

theorem posFrom_nodup (e b n : Nat) : (posFrom e b n).Nodup :=
  (List.nodup_range' (step := 1)).map fun x y h => (Prod.mk.inj h).2

section
variable {p : PS} {used : List (Nat × Nat)}

theorem Used.refill (h : Used p used) : Used p.refill used := by
  unfold PS.refill
  by_cases k : rngReseedSize ≤ p.reseed
  · rw [if_pos k]
    refine ⟨h.nodup, Nat.zero_le _, fun _ => by simp only; omega, fun x hx => ?_⟩
    have h1 := (h.old x hx).1
    exact ⟨by simp only; omega, fun e => absurd e (by simp only; omega)⟩
  · rw [if_neg k]
    refine ⟨h.nodup, Nat.zero_le _, fun _ => by simp only; omega, fun x hx => ?_⟩
    obtain ⟨h1, h2⟩ := h.old x hx
    refine ⟨h1, fun e => ?_⟩
    obtain ⟨h3, _⟩ := h2 e
    exact ⟨by simp only; omega, fun _ => Or.inl (by simp only; omega)⟩

theorem Used.refillIfEmpty (h : Used p used) : Used p.refillIfEmpty used := by
  unfold PS.refillIfEmpty
  by_cases k : p.index = 256
  · rw [if_pos k]; exact h.refill
  · rw [if_neg k]; exact h

theorem Used.take (h : Used p used) {n : Nat} (hn : 0 < n) (hle : p.index + n ≤ 256) :
    Used { p with index := p.index + n } (used ++ posFrom p.e (p.base + p.index) n) := by
  have hb := h.base (by omega)
  refine ⟨List.nodup_append'.mpr ⟨h.nodup, posFrom_nodup _ _ _, fun x hx hy => ?_⟩, hle, fun _ => hb, fun x hx => ?_⟩
  · obtain ⟨h1, h2, h3⟩ := mem_posFrom.mp hy
    obtain ⟨_, h4⟩ := h.old x hx
    have := (h4 h1).2 (by omega)
    omega
  · rcases List.mem_append.mp hx with hx | hx
    · obtain ⟨h1, h2⟩ := h.old x hx
      refine ⟨h1, fun e => ⟨(h2 e).1, fun _ => ?_⟩⟩
      have := (h2 e).2 (by omega)
      simp only; omega
    · obtain ⟨h1, h2, h3⟩ := mem_posFrom.mp hx
      exact ⟨Nat.le_of_eq h1, fun _ => ⟨by simp only; omega, fun _ => Or.inl (by simp only; omega)⟩⟩

theorem PS.refill_index (p : PS) : p.refill.index = 0 := by
  unfold PS.refill
  by_cases k : rngReseedSize ≤ p.reseed
  · rw [if_pos k]
  · rw [if_neg k]

theorem PS.refillIfEmpty_index (h : p.index ≤ 256) : p.refillIfEmpty.index < 256 := by
  unfold PS.refillIfEmpty
  by_cases k : p.index = 256
  · rw [if_pos k, p.refill_index]; decide
  · rw [if_neg k]; omega

theorem Used.cached (h : Used p used) (size : Nat) : Used (p.cached size).1 (used ++ (p.cached size).2) := by
  induction size using Nat.strong_induction_on generalizing p used with
  | _ size ih =>
    rw [PS.cached]
    by_cases k : size = 0
    · rw [if_pos k]; simpa using h
    · have h2 := PS.refillIfEmpty_index h.le
      rw [if_neg k, if_pos h2]
      simp only
      rw [← List.append_assoc]
      exact ih _ (by omega) (h.refillIfEmpty.take (by omega) (by omega))

theorem Used.bytes (h : Used p used) (size : Nat) : Used (p.bytes size).1 (used ++ (p.bytes size).2) := by
  unfold PS.bytes
  by_cases k : 128 < size
  · rw [if_pos k]
    simp only
    generalize size % 2 ^ 32 = n
    refine ⟨List.nodup_append'.mpr ⟨h.nodup, posFrom_nodup _ _ _, fun x hx hy => ?_⟩, h.le, fun hl => ?_, fun x hx => ?_⟩
    · obtain ⟨h1, h2, h3⟩ := mem_posFrom.mp hy
      have := ((h.old x hx).2 h1).1
      omega
    · have := h.base hl
      simp only; omega
    · rcases List.mem_append.mp hx with hx | hx
      · obtain ⟨h1, h2⟩ := h.old x hx
        exact ⟨h1, fun e => ⟨by have := (h2 e).1; simp only; omega, (h2 e).2⟩⟩
      · obtain ⟨h1, h2, h3⟩ := mem_posFrom.mp hx
        refine ⟨Nat.le_of_eq h1, fun _ => ⟨by simp only; omega, fun hl => Or.inr ?_⟩⟩
        have := h.base hl
        simp only; omega
  · rw [if_neg k]; exact h.cached size

theorem Used.value (h : Used p used) {n : Nat} (h0 : 0 < n) (hn : n ≤ 256) : Used (p.value n).1 (used ++ (p.value n).2) := by
  unfold PS.value
  simp only
  by_cases k : 256 - p.index < n
  · rw [if_pos k]; exact h.refill.take h0 (by rw [p.refill_index]; omega)
  · rw [if_neg k]; exact h.take h0 (by have := h.le; omega)

theorem Used.req (h : Used p used) (q : RandomReq) : Used (p.req q).1 (used ++ (p.req q).2) := by
  cases q with
  | bytes n => exact h.bytes n
  | u16 => exact h.value (by decide) (by decide)
  | u64 => exact h.value (by decide) (by decide)

theorem Used.reqs (h : Used p used) (qs : List RandomReq) : Used (p.reqs qs).1 (used ++ (p.reqs qs).2) := by
  induction qs generalizing p used with
  | nil => simpa [PS.reqs] using h
  | cons q qs ih =>
    unfold PS.reqs
    rw [← List.append_assoc]
    exact ih (h.req q)

end

/-! ### How much of a keystream is used -/

/-- Small requests: what has been generated since the last seed is what `reseed` counts. -/
def Small (p : PS) : Prop := 64 * p.ctr = p.reseed ∧ p.reseed ≤ rngReseedSize ∧ p.reseed % 256 = 0

theorem Small.refill {p : PS} (h : Small p) : Small p.refill := by
  unfold PS.refill
  obtain ⟨h1, h2, h3⟩ := h
  have : rngReseedSize = 262144 := rfl
  by_cases k : rngReseedSize ≤ p.reseed
  · rw [if_pos k]; exact ⟨rfl, (by decide : 256 ≤ rngReseedSize), (by decide : 256 % 256 = 0)⟩
  · rw [if_neg k]; exact ⟨by simp only; omega, by simp only; omega, by simp only; omega⟩

theorem Small.refillIfEmpty {p : PS} (h : Small p) : Small p.refillIfEmpty := by
  unfold PS.refillIfEmpty
  by_cases k : p.index = 256
  · rw [if_pos k]; exact h.refill
  · rw [if_neg k]; exact h

/-- The positions handed out in one step from `p` to `q` are below the limit. -/
def Below (x : PS × List (Nat × Nat)) : Prop := Small x.1 ∧ ∀ y ∈ x.2, y.2 < rngReseedSize

theorem Small.cached {p : PS} {used : List (Nat × Nat)} (h : Small p) (u : Used p used) (size : Nat) : Below (p.cached size) := by
  induction size using Nat.strong_induction_on generalizing p used with
  | _ size ih =>
    rw [PS.cached]
    by_cases k : size = 0
    · rw [if_pos k]; exact ⟨h, fun _ h => by cases h⟩
    · have h2 := PS.refillIfEmpty_index u.le
      rw [if_neg k, if_pos h2]
      have hs := h.refillIfEmpty
      have hb := u.refillIfEmpty.base h2
      obtain ⟨h3, h4⟩ := ih (size - min size (256 - p.refillIfEmpty.index)) (by omega)
        (p := { p.refillIfEmpty with index := p.refillIfEmpty.index + min size (256 - p.refillIfEmpty.index) }) hs (u.refillIfEmpty.take (by omega) (by omega))
      refine ⟨h3, fun y hy => ?_⟩
      rcases List.mem_append.mp hy with hy | hy
      · obtain ⟨_, _, h6⟩ := mem_posFrom.mp hy
        have := hs.1; have := hs.2.1
        omega
      · exact h4 y hy

theorem Small.value {p : PS} {used : List (Nat × Nat)} (h : Small p) (u : Used p used) {n : Nat} (h0 : 0 < n) (hn : n ≤ 256) : Below (p.value n) := by
  have key : ∀ {q : PS}, Small q → Used q used → q.index + n ≤ 256 → Below ({ q with index := q.index + n }, posFrom q.e (q.base + q.index) n) := fun {q} hs hu hle => by
    refine ⟨hs, fun y hy => ?_⟩
    obtain ⟨_, _, h6⟩ := mem_posFrom.mp hy
    have := hs.1; have := hs.2.1; have := hu.base (by omega)
    omega
  unfold PS.value
  simp only
  by_cases k : 256 - p.index < n
  · rw [if_pos k]; exact key h.refill u.refill (by rw [p.refill_index]; omega)
  · rw [if_neg k]; exact key h u (by have := u.le; omega)

theorem Small.req {p : PS} {used : List (Nat × Nat)} (h : Small p) (u : Used p used) {q : RandomReq} (hq : q.size ≤ 128) : Below (p.req q) := by
  cases q with
  | bytes n =>
    show Below (p.bytes n)
    unfold PS.bytes
    have hq : n ≤ 128 := hq
    rw [if_neg (by omega)]
    exact h.cached u n
  | u16 => exact h.value u (by decide) (by decide)
  | u64 => exact h.value u (by decide) (by decide)

theorem Small.reqs {p : PS} {used : List (Nat × Nat)} (h : Small p) (u : Used p used) {qs : List RandomReq} (hq : ∀ q ∈ qs, q.size ≤ 128) : Below (p.reqs qs) := by
  induction qs generalizing p used with
  | nil => exact ⟨h, fun _ h => by cases h⟩
  | cons q qs ih =>
    obtain ⟨h1, h2⟩ := h.req u (hq q (by simp))
    obtain ⟨h3, h4⟩ := ih h1 (u.req q) fun x hx => hq x (by simp [hx])
    refine ⟨h3, fun y hy => ?_⟩
    rcases List.mem_append.mp hy with hy | hy
    · exact h2 y hy
    · exact h4 y hy

/-- The blocks generated and the positions handed out are below a bound. -/
def Upto (B : Nat) (x : PS × List (Nat × Nat)) : Prop := x.1.ctr ≤ B ∧ ∀ y ∈ x.2, y.2 < 64 * B

theorem PS.refill_ctr (p : PS) : p.refill.ctr ≤ p.ctr + 4 := by
  unfold PS.refill
  by_cases k : rngReseedSize ≤ p.reseed
  · rw [if_pos k]; simp only; omega
  · rw [if_neg k]

theorem PS.refillIfEmpty_ctr (p : PS) : p.refillIfEmpty.ctr ≤ p.ctr + 4 := by
  unfold PS.refillIfEmpty
  by_cases k : p.index = 256
  · rw [if_pos k]; exact p.refill_ctr
  · rw [if_neg k]; omega

theorem Used.upto_cached {p : PS} {used : List (Nat × Nat)} (u : Used p used) (size : Nat) : Upto (p.ctr + 4 * size) (p.cached size) := by
  induction size using Nat.strong_induction_on generalizing p used with
  | _ size ih =>
    rw [PS.cached]
    by_cases k : size = 0
    · rw [if_pos k]; exact ⟨by simp only; omega, fun _ h => by cases h⟩
    · have h2 := PS.refillIfEmpty_index u.le
      rw [if_neg k, if_pos h2]
      have hb := u.refillIfEmpty.base h2
      have hc := p.refillIfEmpty_ctr
      obtain ⟨h3, h4⟩ := ih (size - min size (256 - p.refillIfEmpty.index)) (by omega)
        (p := { p.refillIfEmpty with index := p.refillIfEmpty.index + min size (256 - p.refillIfEmpty.index) }) (u.refillIfEmpty.take (by omega) (by omega))
      simp only at h3 h4 ⊢
      refine ⟨by simp only; omega, fun y hy => ?_⟩
      rcases List.mem_append.mp hy with hy | hy
      · obtain ⟨_, _, h6⟩ := mem_posFrom.mp hy
        omega
      · have := h4 y hy
        omega

theorem Used.upto_value {p : PS} {used : List (Nat × Nat)} (u : Used p used) {n : Nat} (h0 : 0 < n) (hn : n ≤ 256) : Upto (p.ctr + 4) (p.value n) := by
  have key : ∀ {q : PS}, q.ctr ≤ p.ctr + 4 → Used q used → q.index + n ≤ 256 → Upto (p.ctr + 4) ({ q with index := q.index + n }, posFrom q.e (q.base + q.index) n) := fun {q} hs hu hle => by
    refine ⟨hs, fun y hy => ?_⟩
    obtain ⟨_, _, h6⟩ := mem_posFrom.mp hy
    have := hu.base (by omega)
    omega
  unfold PS.value
  simp only
  by_cases k : 256 - p.index < n
  · rw [if_pos k]; exact key p.refill_ctr u.refill (by rw [p.refill_index]; omega)
  · rw [if_neg k]; exact key (by omega) u (by have := u.le; omega)

theorem Used.upto_req {p : PS} {used : List (Nat × Nat)} (u : Used p used) (q : RandomReq) : Upto (p.ctr + 67108864) (p.req q) := by
  have mono : ∀ {a b : Nat} {x : PS × List (Nat × Nat)}, a ≤ b → Upto a x → Upto b x :=
    fun h ⟨h1, h2⟩ => ⟨Nat.le_trans h1 h, fun y hy => Nat.lt_of_lt_of_le (h2 y hy) (Nat.mul_le_mul_left _ h)⟩
  cases q with
  | bytes n =>
    show Upto _ (p.bytes n)
    unfold PS.bytes
    by_cases k : 128 < n
    · rw [if_pos k]
      have hl : n % 2 ^ 32 < 2 ^ 32 := Nat.mod_lt _ (by decide)
      generalize n % 2 ^ 32 = m at *
      refine ⟨by simp only; omega, fun y hy => ?_⟩
      obtain ⟨_, _, h6⟩ := mem_posFrom.mp hy
      omega
    · rw [if_neg k]; exact mono (by omega) (u.upto_cached n)
  | u16 => exact mono (by omega) (u.upto_value (by decide) (by decide))
  | u64 => exact mono (by omega) (u.upto_value (by decide) (by decide))

theorem Used.upto_reqs {p : PS} {used : List (Nat × Nat)} (u : Used p used) (qs : List RandomReq) : Upto (p.ctr + 67108864 * qs.length) (p.reqs qs) := by
  have h0 := fun {p used} (u : Used p used) => Used.upto_req u
  revert h0
  generalize 67108864 = B
  intro h0
  induction qs generalizing p used with
  | nil => exact ⟨by simp [PS.reqs], fun _ h => by cases h⟩
  | cons q qs ih =>
    obtain ⟨h1, h2⟩ := h0 u q
    obtain ⟨h3, h4⟩ := ih (u.req q)
    rw [PS.reqs, List.length_cons, Nat.mul_add, Nat.mul_one]
    refine ⟨by simp only; omega, fun y hy => ?_⟩
    rcases List.mem_append.mp hy with hy | hy
    · exact Nat.lt_of_lt_of_le (h2 y hy) (Nat.mul_le_mul_left _ (by omega))
    · exact Nat.lt_of_lt_of_le (h4 y hy) (Nat.mul_le_mul_left _ (by omega))

/-! ### How many bytes are delivered -/

theorem posFrom_length (e b n : Nat) : (posFrom e b n).length = n := by simp [posFrom]

theorem PS.cached_length {p : PS} (h : p.index ≤ 256) (size : Nat) : (p.cached size).2.length = size := by
  induction size using Nat.strong_induction_on generalizing p with
  | _ size ih =>
    rw [PS.cached]
    by_cases k : size = 0
    · rw [if_pos k]; simp [k]
    · have h2 := PS.refillIfEmpty_index h
      rw [if_neg k, if_pos h2]
      simp only [List.length_append, posFrom_length]
      rw [ih _ (by omega) (by simp only; omega)]
      omega

theorem PS.req_length {p : PS} (h : p.index ≤ 256) (q : RandomReq) (hq : q.size < 2 ^ 32) : (p.req q).2.length = q.size := by
  cases q with
  | bytes n =>
    show (p.bytes n).2.length = n
    have hq : n < 2 ^ 32 := hq
    unfold PS.bytes
    by_cases k : 128 < n
    · rw [if_pos k]; simp only [posFrom_length]; exact Nat.mod_eq_of_lt hq
    · rw [if_neg k]; exact PS.cached_length h n
  | u16 => exact posFrom_length _ _ _
  | u64 => exact posFrom_length _ _ _

/-! ### From the start -/

/-- A generator that has just been set up. -/
def PS.start : PS := ⟨0, 0, 0, 256, 0⟩

theorem Used.start : Used PS.start [] := ⟨List.nodup_nil, Nat.le_refl _, fun h => absurd h (by decide), fun _ h => by cases h⟩

theorem Small.start : Small PS.start := ⟨rfl, Nat.zero_le _, rfl⟩

/-- The seed of keystream number `n` of a generator that was set up with `key`. -/
def seedOf (key : List (BitVec 8)) (os : Nat → List (BitVec 8)) (first n : Nat) : List (BitVec 8) := if n = 0 then key else os (first + (n - 1))

theorem Sim.start (r : Rng) (key : List (BitVec 8)) (os : Nat → List (BitVec 8)) : Sim os (seedOf key os r.seeds) (r.setup key) PS.start := by
  refine ⟨fun k => ?_, rfl, Nat.le_refl _, rfl, ?_, fun h => absurd h (by decide)⟩
  · show os (r.seeds + k) = if 0 + 1 + k = 0 then _ else os (r.seeds + (0 + 1 + k - 1))
    rw [if_neg (by omega), show 0 + 1 + k - 1 = k by omega]
  · show ivSetup (keySetup r.ctx key) (key.drop 32) = _
    rw [setup_spec]; rfl

end HM
