import Verif.SharedInv
/-
C58: queries about a block that other threads go on using. `QReach g ro ar calm h s q`: as `CReach`, and the queries `q` are in
progress, about blocks that remain with the application: `q t = some ⟨c, P, b⟩` says that thread `t` has called `c`, of whose
program `P` remains, about block `b`. Any number of threads may ask about the same block, and the application may store to it.

The theorems that are called partial are so for the reason given in Threads.lean.
-/
namespace HM

variable {g : Cfg} {ro : Ro} {ar : Nat → Nat} {calm : Bool} {h : List CEv} {s : CSys} {q : Nat → Option Ask}

/-- C58. Whatever the other threads do, no action of a query fails or changes anything but the state of its thread, and errno
keeps its value. -/
theorem c58_no_effect_partial (hg : Good g ar) (r : QReach g ro ar calm h s q) {t b : Nat} {c : Call} {β : Type} {l : Option Sect} {f : Choice → St → Tl → Res (St × Tl × β)}
    {k : β → Prog Ret} (hc : q t = some ⟨c, .act (l := l) f k, b⟩) {ch : Choice} (he : Env calm ch) :
    ∃ tl' x, f ch s.σ (s.tl t) = .ok (s.σ, tl', x) ∧ tl'.errno = (s.tl t).errno := by
  obtain ⟨tl0, i1, _, _, i4⟩ := r.inv hg
  obtain ⟨tl', x, h1, h2, _⟩ := (i4 t _ hc).next hg i1 he
  exact ⟨tl', x, h1, h2⟩

/-- C58. `malloc_usable_size` returns the usable size of the block, which the application still has, and which is at least what
was requested. -/
theorem c58_usable_size_partial (hg : Good g ar) (r : QReach g ro ar calm h s q) {t p b : Nat} {x : Ret} (hc : q t = some ⟨.usableSize p, .ret x, b⟩) (hp : p ≠ 0) :
    ∃ u i, x = .num u ∧ Usable ro s.σ p u ∧ (hold h).live p = some i ∧ i.size ≤ u := by
  obtain ⟨tl0, i1, _, _, i4⟩ := r.inv hg
  obtain ⟨h1, u, h2, _, h3, h4⟩ := i4 t _ hc
  obtain rfl : p = b := h3
  obtain ⟨i, e⟩ := Option.isSome_iff_exists.mp (h1 hp)
  exact ⟨u, i, by rw [h4, if_neg (show p ≠ 0 from hp)], h2 hp, e, ((c36_usable_partial hg i1 e).2 u (h2 hp)).1⟩

/-- C58. `malloc_object_size` of a pointer into a block returns at least the number of usable bytes from there on: exactly that
number if the pointer is the one returned by the allocator or is in the area for small blocks, and SIZE_MAX otherwise. -/
theorem c58_object_size_partial (hg : Good g ar) (r : QReach g ro ar calm h s q) {t y b : Nat} {x : Ret} (hc : q t = some ⟨.objectSize y, .ret x, b⟩) (hy : y ≠ 0) :
    ∃ u n, x = .num n ∧ ((hold h).live b).isSome ∧ Usable ro s.σ b u ∧ b ≤ y ∧ y < b + u ∧
      if y = b ∨ (ro.slabStart ≤ y ∧ y < ro.slabEnd) then n = b + u - y else n = 2 ^ 64 - 1 := by
  obtain ⟨tl0, i1, _, _, i4⟩ := r.inv hg
  obtain ⟨h1, u, h2, _, ⟨_, h3, _⟩ | ⟨h0, h3, h4, n, h5, h6⟩⟩ := i4 t _ hc
  · exact absurd h3 hy
  · refine ⟨u, n, h5, h1 h0, h2 h0, h3, h4, ?_⟩
    unfold ObjectSizeIs at h6
    have hin : ro.inSlab y = true ↔ ro.slabStart ≤ y ∧ y < ro.slabEnd := by
      unfold Ro.inSlab; simp [and_comm]
    by_cases hs : ro.inSlab y = true
    · rw [if_pos hs] at h6
      rw [if_pos (Or.inr (hin.mp hs))]; exact h6
    · rw [if_neg hs] at h6
      by_cases e : y = b
      · rw [if_pos e] at h6
        rw [if_pos (Or.inl e)]
        change b ≤ y at h3
        change y < b + u at h4
        omega
      · rw [if_neg e] at h6
        rw [if_neg (by rw [not_or]; exact ⟨e, fun k => hs (hin.mpr k)⟩)]; exact h6

/-- C58. When a query returns, the metadata is sealed again. -/
theorem c58_sealed (hg : Good g ar) (r : QReach g ro ar calm h s q) {t b : Nat} {c : Call} {x : Ret} (hc : q t = some ⟨c, .ret x, b⟩) : (s.tl t).unsealed = false := by
  obtain ⟨tl0, i1, _, i3, i4⟩ := r.inv hg
  obtain ⟨_, u, _, e, _⟩ := i4 t _ hc
  obtain ⟨w, _, I⟩ := i1.inv hg
  rw [show s.tl t = tl0 t from e]
  refine I.tl t ?_
  cases e : s.run t with
  | none => rfl
  | some y => rw [i3 t (by rw [e]; simp)] at hc; cases hc

/-- C58. A query needs nothing but its own actions to return: from every state in which it is in progress its thread can finish
it without any other thread doing anything, and nothing is changed but the state of the thread. -/
theorem c58_finishes (hg : Good g ar) (r : QReach g ro ar calm h s q) {t : Nat} {a : Ask} (hc : q t = some a) :
    ∃ x tl', QReach g ro ar calm h ⟨s.σ, upd s.tl t tl', s.run, s.start⟩ (upd q t (some ⟨a.call, .ret x, a.blk⟩)) := by
  obtain ⟨c, P, b⟩ := a
  induction P generalizing s q with
  | ret x =>
    refine ⟨x, s.tl t, ?_⟩
    have e1 : upd s.tl t (s.tl t) = s.tl := by funext u; unfold upd; split <;> simp_all
    have e2 : upd q t (some ⟨c, .ret x, b⟩) = q := by funext u; unfold upd; split <;> simp_all
    rw [e1, e2]; exact r
  | act f k ih =>
    have he : Env calm (exAt 0) := exAt_env calm 0
    obtain ⟨tl', y, h1, _⟩ := c58_no_effect_partial hg r hc he
    obtain ⟨x, tl'', h2⟩ := ih y (r.step t hc he h1) (if_pos rfl)
    refine ⟨x, tl'', ?_⟩
    have e1 : upd (upd s.tl t tl') t tl'' = upd s.tl t tl'' := by funext u; unfold upd; split <;> rfl
    have e2 : upd (upd q t (some ⟨c, k y, b⟩)) t (some ⟨c, .ret x, b⟩) = upd q t (some ⟨c, .ret x, b⟩) := by funext u; unfold upd; split <;> rfl
    rw [← e1, ← e2]; exact h2

/-- C58. The queries do not disturb the other calls: without them the same calls reach the same shared state. So whatever was
proved about `CReach` (C36, C55, C56, C57) holds while queries are in progress. -/
theorem c58_undisturbed (hg : Good g ar) (r : QReach g ro ar calm h s q) :
    ∃ tl0, CReach g ro ar calm h ⟨s.σ, tl0, s.run, s.start⟩ ∧ ∀ t, q t = none → s.tl t = tl0 t := by
  obtain ⟨tl0, i1, i2, _, _⟩ := r.inv hg
  exact ⟨tl0, i1, i2⟩

/-- C58. Nothing is lost by asking: every state of Conc.lean is one without queries in progress. -/
theorem CReach.asking (r : CReach g ro ar calm h s) : QReach g ro ar calm h s fun _ => none := by
  refine r.induction (M := fun h s => QReach g ro ar calm h s fun _ => none) (fun hi htl => .init hi htl) fun {h s h' s'} _ st ih => ?_
  by_cases e : ∃ t, h' = .fork t :: h
  · obtain ⟨t, e⟩ := e
    exact ih.fork st e rfl
  · refine ih.base st (fun e _ => ?_) fun t k => e ⟨t, k⟩
    cases e <;> first | trivial | exact ⟨rfl, fun _ _ e => by cases e⟩

/-! ### The hypotheses are met -/

/-- Threads 5, 6 and 7 ask about the block of thread 0, to which it stores, while thread 1 is in the middle of a call; the query of
thread 5 is about to return. -/
example : ∃ h s q, QReach (exCfg false true) (exRo false true) (fun t => t % 4) false h s q ∧ (∃ v h', h = .store exA v :: h') ∧
    (hold h).live exA = some ⟨100, none⟩ ∧ s.phase 1 = some none ∧
    (∃ x, q 5 = some ⟨.usableSize exA, .ret x, exA⟩) ∧ (∃ P, q 6 = some ⟨.usableSize exA, P, exA⟩) ∧ (∃ x, q 7 = some ⟨.objectSize (exA + 10), .ret x, exA⟩) := by
  obtain ⟨h, s, h1, h2⟩ := ex_conc (stats := false) (sealed := true) (calm := false) exThreads
    (fun h s => decide ((hold h).live exA = some ⟨100, none⟩) && decide (usableB (exRo false true) s.σ exA = some 104) &&
      decide (s.phase 1 = some none) && decide (s.phase 5 = none) && decide (s.phase 6 = none) && decide (s.phase 7 = none)) (by decide +kernel)
  simp only [Bool.and_eq_true, decide_eq_true_eq] at h2
  obtain ⟨⟨⟨⟨⟨k1, k2⟩, k3⟩, k5⟩, k6⟩, k7⟩ := h2
  have idle : ∀ {t}, s.phase t = none → s.run t = none := fun {t} e => by
    unfold CSys.phase at e
    cases hr : s.run t with
    | none => rfl
    | some y => rw [hr] at e; obtain ⟨c, P⟩ := y; cases P <;> cases e
  have hl : ((hold h).live exA).isSome = true := by rw [k1]; rfl
  have hu := usableB_usable k2
  have hg := exGood false true
  have r1 := h1.asking.ask 5 (.usableSize exA) exA (idle k5) rfl trivial (show _ < _ by decide) ⟨rfl, Or.inr hl⟩
  have r2 := r1.ask 6 (.usableSize exA) exA (idle k6) rfl trivial (show _ < _ by decide) ⟨rfl, Or.inr hl⟩
  have r3 := r2.ask 7 (.objectSize (exA + 10)) exA (idle k7) rfl trivial (show _ < _ by decide) (Or.inr ⟨hl, 104, hu, by omega, by omega⟩)
  obtain ⟨x, _, r4⟩ := c58_finishes hg r3 (t := 5) rfl
  have r5 := r4.base (.store exA 9#8 hl hu (Nat.le_refl _) (by omega)) (fun e k => by cases k; trivial) (fun t k => by cases k)
  obtain ⟨y, _, r6⟩ := c58_finishes hg r5 (t := 7) rfl
  exact ⟨_, _, _, r6, ⟨_, _, rfl⟩, k1, k3, ⟨x, rfl⟩, ⟨_, rfl⟩, ⟨y, rfl⟩⟩

end HM
