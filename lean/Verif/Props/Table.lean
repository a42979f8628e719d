import Verif.TableLemmas
/-
C24. The table of large allocations behaves as a finite map from addresses to (size, guard size), for every hash
function and every history of insertions, deletions and growths.
-/
namespace HM

/-- Specification: a finite map from addresses to (size, guard size). -/
abbrev RMap := Nat → Option (Nat × Nat)

/-- Specification: the map updated at one address. -/
def RMap.upd (m : RMap) (p : Nat) (v : Option (Nat × Nat)) : RMap := fun q => if q = p then v else m q

/-- All histories of the table, with the map computed from the history alone. Insertions use addresses that are not
already present, as the allocator does (the address comes from a fresh mapping). `maxTotal` and the success of the
mprotect call are arbitrary at each step; the remapping of the outgrown array succeeds. -/
inductive TableHistory (hash : Nat → Nat) : RegTable → RMap → Prop
  | init : TableHistory hash RegTable.init (fun _ => none)
  | insert {t t' : RegTable} {m : RMap} (maxTotal : Nat) (protOk : Bool) (p size guard : Nat) :
      TableHistory hash t m → p ≠ 0 → m p = none →
      regionsInsert hash maxTotal protOk true t ⟨p, size, guard⟩ = .ok (some t') →
      TableHistory hash t' (m.upd p (some (size, guard)))
  | delete {t t' : RegTable} {m : RMap} (p i : Nat) :
      TableHistory hash t m → regionsFind hash t p = .ok (some i) → regionsDelete hash t i = .ok t' →
      TableHistory hash t' (m.upd p none)

/-- What the table says about address `p`: `regions_find`, then reading the entry it points to. -/
def tableLookup (hash : Nat → Nat) (t : RegTable) (p : Nat) : Res (Option (Nat × Nat)) := do
  match ← regionsFind hash t p with
  | none => .ok none
  | some i => .ok (some ((t.tab i).size, (t.tab i).guard))

theorem TableHistory.inv {hash : Nat → Nat} {t : RegTable} {m : RMap} (h : TableHistory hash t m) :
    t.Inv hash ∧ m 0 = none ∧ ∀ p s g, p ≠ 0 → (m p = some (s, g) ↔ t.Has ⟨p, s, g⟩) := by
  induction h with
  | init =>
    refine ⟨RegTable.init_inv hash, rfl, ?_⟩
    intro p s g hp
    constructor
    · intro h; simp at h
    · rintro ⟨_, i, _, he⟩
      exact absurd (congrArg RegionMeta.p he).symm hp
  | @insert t t' m maxTotal protOk p size guard _ hp hm hi ih =>
    obtain ⟨inv, m0, hm'⟩ := ih
    have hnew : ∀ q : RegionMeta, t.Has q → q.p ≠ p := by
      rintro ⟨qp, qs, qg⟩ hq he
      simp only at he
      subst he
      rw [(hm' _ qs qg hp).mpr hq] at hm; simp at hm
    rcases regionsInsert_spec (maxTotal := maxTotal) (protOk := protOk) (r := ⟨p, size, guard⟩) inv hp hnew with
      ⟨h, -⟩ | ⟨u, h, uinv, uh⟩
    · rw [h] at hi; simp at hi
    · rw [h] at hi
      simp only [Res.ok.injEq, Option.some.injEq] at hi
      subst hi
      refine ⟨uinv, ?_, ?_⟩
      · unfold RMap.upd; rw [if_neg (Ne.symm hp)]; exact m0
      · intro q s g hq
        unfold RMap.upd
        rw [uh]
        by_cases hqp : q = p
        · subst hqp
          rw [if_pos rfl]
          constructor
          · intro h; right; simp only [Option.some.injEq, Prod.mk.injEq] at h; rw [h.1, h.2]
          · rintro (h | h)
            · exact absurd rfl (hnew _ h)
            · simp only [RegionMeta.mk.injEq, true_and] at h; rw [h.1, h.2]
        · rw [if_neg hqp, hm' q s g hq]
          constructor
          · exact Or.inl
          · rintro (h | h)
            · exact h
            · simp only [RegionMeta.mk.injEq] at h; exact absurd h.1 hqp
  | @delete t t' m p i _ hf hd ih =>
    obtain ⟨inv, m0, hm'⟩ := ih
    rcases regionsFind_spec inv p with ⟨j, hj, hp, hjp, h⟩ | ⟨_, h⟩
    · rw [h] at hf
      simp only [Res.ok.injEq, Option.some.injEq] at hf
      subst hf
      obtain ⟨u, h, uinv, uh⟩ := regionsDelete_spec inv hj (by rw [hjp]; exact hp)
      rw [h] at hd
      simp only [Res.ok.injEq] at hd
      subst hd
      refine ⟨uinv, ?_, ?_⟩
      · unfold RMap.upd; rw [if_neg (Ne.symm hp)]; exact m0
      · intro q s g hq
        unfold RMap.upd
        rw [uh]
        by_cases hqp : q = p
        · subst hqp
          rw [if_pos rfl]
          constructor
          · intro h; simp at h
          · rintro ⟨⟨_, a, ha, he⟩, hne⟩
            exfalso
            have : a = j := inv.tab.distinct a j ha hj (by rw [he]; exact hq) (by rw [he, hjp])
            subst this
            exact hne he.symm
        · rw [if_neg hqp, hm' q s g hq]
          constructor
          · intro h
            refine ⟨h, ?_⟩
            intro he
            rw [← he] at hjp
            exact hqp hjp
          · exact fun h => h.1
    · rw [h] at hf; simp at hf

/-- C24. After any history, looking up any address returns exactly what the history says: the sizes recorded at its
insertion if it has not been deleted since, and nothing otherwise. The lookup always ends. Missing: histories in which the
remapping of the outgrown table fails, for which the claim is false (`c24_stale_after_ignored_failure`). -/
theorem c24_find_exact_partial {hash : Nat → Nat} {t : RegTable} {m : RMap} (h : TableHistory hash t m) (p : Nat) :
    tableLookup hash t p = .ok (m p) := by
  obtain ⟨inv, m0, hm⟩ := h.inv
  unfold tableLookup
  rcases regionsFind_spec inv p with ⟨i, hi, hp, hip, h⟩ | ⟨hn, h⟩
  · rw [h]
    simp only [Res.bind_ok]
    have : m p = some ((t.tab i).size, (t.tab i).guard) := by
      rw [hm p _ _ hp]
      refine ⟨hp, i, hi, ?_⟩
      rw [← hip]
    rw [this]
  · rw [h]
    simp only [Res.bind_ok]
    congr 1
    rcases hn with hn | hn
    · rw [hn, m0]
    · by_cases hp : p = 0
      · rw [hp, m0]
      · cases hmp : m p with
        | none => rfl
        | some v =>
          obtain ⟨_, i, hi, he⟩ := (hm p v.1 v.2 hp).mp hmp
          exact absurd (by rw [he]) (hn i hi)

/-- C24. An insertion always ends. It is refused only when more than three quarters of the entries are in use and the
table cannot be enlarged: size limit reached, or the protection change refused by the kernel. -/
theorem c24_insert_total {hash : Nat → Nat} {t : RegTable} {m : RMap} (h : TableHistory hash t m) (maxTotal : Nat)
    (protOk : Bool) (p size guard : Nat) (hp : p ≠ 0) (hm : m p = none) :
    (∃ t', regionsInsert hash maxTotal protOk true t ⟨p, size, guard⟩ = .ok (some t')) ∨
    (regionsInsert hash maxTotal protOk true t ⟨p, size, guard⟩ = .ok none ∧ 3 * t.total < 4 * (t.total - t.free) ∧
      (maxTotal < 2 * t.total ∨ W64 ≤ 48 * t.total + 96 ∨ protOk = false)) := by
  obtain ⟨inv, m0, hm'⟩ := h.inv
  have hnew : ∀ q : RegionMeta, t.Has q → q.p ≠ p := by
    rintro ⟨qp, qs, qg⟩ hq he
    simp only at he
    subst he
    rw [(hm' _ qs qg hp).mpr hq] at hm; simp at hm
  rcases regionsInsert_spec (maxTotal := maxTotal) (protOk := protOk) (r := ⟨p, size, guard⟩) inv hp hnew with
    h | ⟨u, h, _⟩
  · exact Or.inr h
  · exact Or.inl ⟨u, h⟩

/-- C24. A deletion of an entry that was found always ends. -/
theorem c24_delete_total {hash : Nat → Nat} {t : RegTable} {m : RMap} (h : TableHistory hash t m) (p i : Nat)
    (hf : regionsFind hash t p = .ok (some i)) : ∃ t', regionsDelete hash t i = .ok t' := by
  obtain ⟨inv, -, -⟩ := h.inv
  rcases regionsFind_spec inv p with ⟨j, hj, hp, hjp, h⟩ | ⟨_, h⟩
  · rw [h] at hf
    simp only [Res.ok.injEq, Option.some.injEq] at hf
    subst hf
    obtain ⟨u, h, _⟩ := regionsDelete_spec inv hj (by rw [hjp]; exact hp)
    exact ⟨u, h⟩
  · rw [h] at hf; simp at hf

/-! ### A case that meets the hypotheses, and the effect of an ignored failure -/

/-- Insert the pages `s, s+1, ...` (`n` of them) using the real hash function (util.h `hash_page`). -/
def insertPages (remapOk : Bool) (maxTotal : Nat) : Nat → Nat → RegTable → Res RegTable
  | 0, _, t => .ok t
  | n + 1, s, t => do
      match ← regionsInsert hashPage maxTotal true remapOk t ⟨s * 4096, 20480, 4096⟩ with
      | none => .fatal "refused"
      | some t => insertPages remapOk maxTotal n (s + 1) t

/-- Find and delete. -/
def deletePage (t : RegTable) (s : Nat) : Res RegTable := do
  match ← regionsFind hashPage t (s * 4096) with
  | none => .fatal "absent"
  | some i => regionsDelete hashPage t i

/-- Insert 98 regions (the table grows once), delete number 7, insert 97 more (the table grows again); then look up the
deleted one and a live one. -/
def growTwice (remapOk : Bool) : Res (Nat × Option (Nat × Nat) × Option (Nat × Nat)) := do
  let t ← insertPages remapOk 100000 98 1 RegTable.init
  let t ← deletePage t 7
  let t ← insertPages remapOk 100000 97 99 t
  let a ← tableLookup hashPage t (7 * 4096)
  let b ← tableLookup hashPage t (8 * 4096)
  .ok (t.total, a, b)

set_option maxRecDepth 100000 in
/-- `regions_grow` ignores a failure of `memory_map_fixed` on the outgrown array. If that call fails, the array keeps its
old entries, it is used again at the next growth, and a deleted (freed) region is found as if it were live. This is why
the histories above assume that this call succeeds. -/
theorem c24_stale_after_ignored_failure : growTwice false = .ok (512, some (20480, 4096), some (20480, 4096)) := by
  decide +kernel

/-- A concrete history with two regions, one deleted. -/
example : ∃ t, TableHistory hashPage t ((RMap.upd (fun _ => none) 8192 (some (20480, 4096))).upd 4096 (some (24576, 8192))) := by
  obtain ⟨t1, h1⟩ : ∃ t1, regionsInsert hashPage 4096 true true RegTable.init ⟨8192, 20480, 4096⟩ = .ok (some t1) := by
    rcases c24_insert_total (TableHistory.init (hash := hashPage)) 4096 true 8192 20480 4096 (by decide) rfl with h | h
    · exact h
    · exact absurd h.2.1 (by decide)
  have H1 := TableHistory.insert 4096 true 8192 20480 4096 TableHistory.init (by decide) rfl h1
  obtain ⟨t2, h2⟩ : ∃ t2, regionsInsert hashPage 4096 true true t1 ⟨4096, 24576, 8192⟩ = .ok (some t2) := by
    rcases c24_insert_total H1 4096 true 4096 24576 8192 (by decide) rfl with h | h
    · exact h
    · exfalso
      have e := h1
      unfold regionsInsert at e
      simp only [show ¬(RegTable.init.free * 4 < RegTable.init.total) by decide, if_false, Res.bind_ok] at e
      cases hti : tableInsert hashPage RegTable.init.tab RegTable.init.total ⟨8192, 20480, 4096⟩ with
      | none => rw [hti] at e; simp at e
      | some tab =>
        rw [hti] at e
        simp only [Res.ok.injEq, Option.some.injEq] at e
        have ht : t1.total = 128 := by rw [← e]; rfl
        have hf : t1.free = 127 := by rw [← e]; rfl
        have := h.2.1
        rw [ht, hf] at this
        omega
  exact ⟨t2, TableHistory.insert 4096 true 4096 24576 8192 H1 (by decide) rfl h2⟩

end HM
