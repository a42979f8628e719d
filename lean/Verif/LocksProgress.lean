import Verif.LocksReach
/-
A thread that waits for a lock can always be served: the threads that hold it, and those that they wait for, can go on until it is free.
-/
namespace HM.L

/-- Steps of a process, the first one first. -/
inductive Path (d : Dim) : LSys → List (Nat × Op) → LSys → Prop where
  | nil (s : LSys) : Path d s [] s
  | cons {s s1 s2 : LSys} {t : Nat} {o : Op} {p : List (Nat × Op)} (h : LStep d s t o s1) (r : Path d s1 p s2) : Path d s ((t, o) :: p) s2

theorem Path.append {d : Dim} {s s1 s2 : LSys} {p q : List (Nat × Op)} (h1 : Path d s p s1) (h2 : Path d s1 q s2) : Path d s (p ++ q) s2 := by
  induction h1 with
  | nil => exact h2
  | cons h _ ih => exact .cons h (ih h2)

/-- The states along a path are reachable. -/
theorem Path.reach {d : Dim} {s s' : LSys} {p h : List (Nat × Op)} (r : LReach d h s) (q : Path d s p s') : ∃ h', LReach d h' s' := by
  induction q generalizing h with
  | nil => exact ⟨h, r⟩
  | cons hs _ ih => exact ih (r.step hs)

variable {d : Dim} {s s' : LSys} {st : Nat → Stat} {t : Nat}

/-- The thread has not moved, and holds the same locks. -/
def Keeps (s s' : LSys) (v : Nat) : Prop := s'.pc v = s.pc v ∧ (∀ x, s'.owner x = .held v ↔ s.owner x = .held v) ∧ s'.dis v = s.dis v

theorem Keeps.refl (s : LSys) (v : Nat) : Keeps s s v := ⟨rfl, fun _ => Iff.rfl, rfl⟩

theorem Keeps.trans {s1 s2 : LSys} {v : Nat} (h1 : Keeps s s1 v) (h2 : Keeps s1 s2 v) : Keeps s s2 v :=
  ⟨h2.1.trans h1.1, fun x => (h2.2.1 x).trans (h1.2.1 x), h2.2.2.trans h1.2.2⟩

theorem keeps_upd {l : Lock} {k : Code} {o : Own} {v : Nat} (hv : v ≠ t) (h1 : o ≠ .held v) (h2 : s.owner l ≠ .held v) :
    Keeps s { s with owner := upd s.owner l o, pc := upd s.pc t k } v := by
  refine ⟨upd_ne _ _ hv, fun x => ?_, rfl⟩
  by_cases e : x = l
  · subst e; simp only [upd_same]; exact ⟨fun h => absurd h h1, fun h => absurd h h2⟩
  · simp only [upd_ne _ _ e]

theorem J.frame (j : J d s st) {n : Nat} {o : Op} (h : s.step t n = some (s', o)) {v : Nat} (hv : v ≠ t) : Keeps s s' v := by
  have w := j.wf t
  unfold LSys.step at h
  by_cases hdead : s.dead = true
  · rw [if_pos hdead] at h; cases h
  rw [if_neg hdead] at h
  have hh : ∀ {l : Lock}, s.owner l = .held t → s.owner l ≠ .held v := fun h1 h2 => by rw [h1] at h2; cases h2; exact hv rfl
  cases hc : s.pc t <;> rw [hc] at h w <;> simp only at h
  case done => cases h
  case bad => cases h
  case lock l k =>
    by_cases hf : s.owner l = .free
    · rw [if_pos hf] at h; cases h
      refine keeps_upd hv ?_ (by rw [hf]; simp)
      intro h; cases h; exact hv rfl
    · rw [if_neg hf] at h; cases h
  case unlock l k =>
    cases h
    exact keeps_upd hv (by simp) (hh ((j.own t l).mp w.1))
  case newLock l k =>
    cases h
    refine keeps_upd hv (by simp) ?_
    rcases w.2.1 with w2 | w2
    · rw [j.cold (j.no t w2).1 l w.1]; simp
    · exact hh ((j.own t l).mp w2)
  case fatal => cases h; exact Keeps.refl _ _
  all_goals cases h; exact ⟨upd_ne _ _ hv, fun _ => Iff.rfl, rfl⟩

/-- The lock can be released without the help of the threads that do not hold this lock or a later one, and without any further calls but `malloc_enable`. -/
def CanFree (d : Dim) (s : LSys) (l : Lock) : Prop :=
  ∃ p s', Path d s p s' ∧ (s'.dead = true ∨ s'.owner l = .free) ∧ (∀ e ∈ p, ∀ c, e.2 = .start c → c = .enable) ∧
    ∀ v, (∀ x, s.owner x = .held v → d.rank x < d.rank l) → (∀ e ∈ p, e.1 ≠ v) ∧ Keeps s s' v

theorem CanFree.cons {l : Lock} {u : Nat} {o : Op} {s1 : LSys} (hu : s.owner l = .held u) (h : LStep d s u o s1) (ho : ∀ c, o = .start c → c = .enable) (hf : ∀ v, v ≠ u → Keeps s s1 v)
    (h1 : s1.dead = true ∨ s1.owner l = .free ∨ CanFree d s1 l) : CanFree d s l := by
  have hne : ∀ v, (∀ x, s.owner x = .held v → d.rank x < d.rank l) → v ≠ u := by
    rintro v hv rfl
    have := hv l hu
    omega
  rcases h1 with h1 | h1 | ⟨p, s', h2, h3, h4, h5⟩
  · exact ⟨_, s1, .cons h (.nil _), Or.inl h1, by simpa using ho, fun v hv => ⟨by simpa using (hne v hv).symm, hf v (hne v hv)⟩⟩
  · exact ⟨_, s1, .cons h (.nil _), Or.inr h1, by simpa using ho, fun v hv => ⟨by simpa using (hne v hv).symm, hf v (hne v hv)⟩⟩
  · refine ⟨_, s', .cons h h2, h3, ?_, fun v hv => ?_⟩
    · intro e he
      rcases List.mem_cons.mp he with rfl | he
      · exact ho
      · exact h4 e he
    · have hk := hf v (hne v hv)
      obtain ⟨h6, h7⟩ := h5 v fun x hx => hv x ((hk.2.1 x).mp hx)
      refine ⟨?_, hk.trans h7⟩
      intro e he
      rcases List.mem_cons.mp he with rfl | he
      · exact (hne v hv).symm
      · exact h6 e he

theorem CanFree.wait {l l' : Lock} (hl : d.rank l < d.rank l') (h1 : CanFree d s l')
    (h2 : ∀ p s', Path d s p s' → (s'.dead = true ∨ s'.owner l' = .free) → (∀ v, (∀ x, s.owner x = .held v → d.rank x < d.rank l') → Keeps s s' v) → s'.dead = true ∨ CanFree d s' l) :
    CanFree d s l := by
  obtain ⟨p, s1, h3, h4, h5, h6⟩ := h1
  have h7 : ∀ v, (∀ x, s.owner x = .held v → d.rank x < d.rank l) → ∀ x, s.owner x = .held v → d.rank x < d.rank l' := fun v hv x hx => Nat.lt_trans (hv x hx) hl
  rcases h2 p s1 h3 h4 (fun v hv => (h6 v hv).2) with h8 | ⟨q, s2, h8, h9, h10, h11⟩
  · exact ⟨p, s1, h3, Or.inl h8, h5, fun v hv => h6 v (h7 v hv)⟩
  · refine ⟨p ++ q, s2, h3.append h8, h9, ?_, fun v hv => ?_⟩
    · intro e he
      rcases List.mem_append.mp he with he | he
      · exact h5 e he
      · exact h10 e he
    · obtain ⟨a, b⟩ := h6 v (h7 v hv)
      obtain ⟨a', b'⟩ := h11 v fun x hx => hv x ((b.2.1 x).mp hx)
      refine ⟨?_, b.trans b'⟩
      intro e he
      rcases List.mem_append.mp he with he | he
      · exact a e he
      · exact a' e he

/-- The largest rank. -/
theorem rank_le {l : Lock} (h : l = .init ∨ l ∈ d.full) : d.rank l ≤ 2 + d.na * d.nc := by
  rcases h with rfl | h
  · simp [Dim.rank]
  · rcases mem_full.mp h with rfl | h
    · simp only [Dim.rank]; omega
    · obtain ⟨a, c, ha, hc, rfl⟩ := mem_classLocks.mp h
      simp only [Dim.rank]
      have : (a + 1) * d.nc ≤ d.na * d.nc := Nat.mul_le_mul_right _ ha
      rw [Nat.add_mul, Nat.one_mul] at this
      omega

/-- What the owner of a lock does until it has released it, if it does not end in the application. `done`: what happens if it does. -/
theorem canFree_code (hna : 0 < d.na) {l : Lock} {u : Nat}
    (ih : ∀ l', d.rank l < d.rank l' → ∀ h s v, LReach d h s → s.dead = false → s.owner l' = .held v → CanFree d s l') (dis : Bool)
    (hdone : ∀ h s, LReach d h s → s.dead = false → s.owner l = .held u → s.dis u = dis → s.pc u = .done → CanFree d s l) (K : Code) :
    ∀ h s, LReach d h s → s.dead = false → s.owner l = .held u → s.dis u = dis → s.pc u = K → CanFree d s l := by
  -- a step that keeps the lock
  have go : ∀ {K' : Code}, (∀ h s, LReach d h s → s.dead = false → s.owner l = .held u → s.dis u = dis → s.pc u = K' → CanFree d s l) →
      ∀ h s s1 n o, LReach d h s → s.dead = false → s.owner l = .held u → s.dis u = dis → s.step u n = some (s1, o) → (∀ c, o ≠ .start c) → s1.owner l = .held u → s1.dead = false → s1.dis = s.dis → s1.pc u = K' →
      CanFree d s l := by
    intro K' ih' h s s1 n o r hd ho hdi hs hst ho1 hd1 hdi1 hpc
    obtain ⟨st, j⟩ := r.inv hna
    refine CanFree.cons ho (.run hs) (fun c hc => absurd hc (hst c)) (fun v hv => j.frame hs hv) (Or.inr (Or.inr ?_))
    exact ih' _ s1 (r.step (.run hs)) hd1 ho1 (by rw [hdi1]; exact hdi) hpc
  induction K with
  | done => exact hdone
  | bad =>
    intro h s r _ _ _ hpc
    obtain ⟨st, j⟩ := r.inv hna
    have := j.wf u
    rw [hpc] at this
    exact this.elim
  | fatal =>
    intro h s r hd ho _ hpc
    obtain ⟨st, j⟩ := r.inv hna
    have hs : s.step u 0 = some ({ s with dead := true }, .other) := by
      unfold LSys.step; rw [if_neg (by rw [hd]; simp), hpc]
    exact CanFree.cons ho (.run hs) (fun c hc => by cases hc) (fun v hv => j.frame hs hv) (Or.inl rfl)
  | lock l' k ihk =>
    intro h s r hd ho hdi hpc
    obtain ⟨st, j⟩ := r.inv hna
    have w := j.wf u
    rw [hpc] at w
    obtain ⟨w1, w2, w3, w4⟩ := w
    have hl : d.rank l < d.rank l' := w2 l ((j.own u l).mpr ho)
    have take : ∀ h s, LReach d h s → s.dead = false → s.owner l = .held u → s.dis u = dis → s.pc u = .lock l' k → s.owner l' = .free → CanFree d s l := by
      intro h s r hd ho hdi hpc hf
      have hs : s.step u 0 = some ({ s with owner := upd s.owner l' (.held u), pc := upd s.pc u k }, .lock l') := by
        unfold LSys.step; rw [if_neg (by rw [hd]; simp), hpc]; simp only; rw [if_pos hf]
      refine go ihk h s _ 0 _ r hd ho hdi hs (fun c hc => by cases hc) ?_ hd rfl (upd_same _ _ _)
      show upd s.owner l' _ l = _
      rw [upd_ne _ _ (by rintro rfl; omega)]; exact ho
    cases hw : s.owner l' with
    | free => exact take h s r hd ho hdi hpc hw
    | lost =>
      obtain ⟨a, b⟩ := j.lost l' hw
      subst a
      rcases w1 with ⟨_, w1⟩ | ⟨w1, _⟩
      · rw [b u] at w1; cases w1
      · exact absurd w1 init_not_full
    | held v =>
      refine CanFree.wait hl (ih l' hl h s v r hd hw) fun p s' h1 h2 h3 => ?_
      rcases Bool.eq_false_or_eq_true s'.dead with hd' | hd'
      · exact Or.inl hd'
      refine Or.inr ?_
      obtain ⟨h', r'⟩ := h1.reach r
      obtain ⟨k1, k2, k3⟩ := h3 u fun x hx => w2 x ((j.own u x).mpr hx)
      exact take h' s' r' hd' ((k2 l).mpr ho) (k3.trans hdi) (k1.trans hpc) (h2.resolve_left (by rw [hd']; simp))
  | unlock x k ihk =>
    intro h s r hd ho hdi hpc
    obtain ⟨st, j⟩ := r.inv hna
    have hs : s.step u 0 = some ({ s with owner := upd s.owner x .free, pc := upd s.pc u k }, .unlock x) := by
      unfold LSys.step; rw [if_neg (by rw [hd]; simp), hpc]
    by_cases e : x = l
    · subst e
      exact CanFree.cons ho (.run hs) (fun c hc => by cases hc) (fun v hv => j.frame hs hv) (Or.inr (Or.inl (upd_same _ _ _)))
    · refine go ihk h s _ 0 _ r hd ho hdi hs (fun c hc => by cases hc) ?_ hd rfl (upd_same _ _ _)
      show upd s.owner x _ l = _
      rw [upd_ne _ _ (Ne.symm e)]; exact ho
  | newLock x k ihk =>
    intro h s r hd ho hdi hpc
    obtain ⟨st, j⟩ := r.inv hna
    have hs : s.step u 0 = some ({ s with owner := upd s.owner x .free, pc := upd s.pc u k }, .other) := by
      unfold LSys.step; rw [if_neg (by rw [hd]; simp), hpc]
    by_cases e : x = l
    · subst e
      exact CanFree.cons ho (.run hs) (fun c hc => by cases hc) (fun v hv => j.frame hs hv) (Or.inr (Or.inl (upd_same _ _ _)))
    · refine go ihk h s _ 0 _ r hd ho hdi hs (fun c hc => by cases hc) ?_ hd rfl (upd_same _ _ _)
      show upd s.owner x _ l = _
      rw [upd_ne _ _ (Ne.symm e)]; exact ho
  | touch x k ihk =>
    intro h s r hd ho hdi hpc
    have hs : s.step u 0 = some ({ s with pc := upd s.pc u k }, .touch x) := by
      unfold LSys.step; rw [if_neg (by rw [hd]; simp), hpc]
    exact go ihk h s _ 0 _ r hd ho hdi hs (fun c hc => by cases hc) ho hd rfl (upd_same _ _ _)
  | seed x k ihk =>
    intro h s r hd ho hdi hpc
    have hs : s.step u 0 = some ({ s with seeded := upd s.seeded x (some s.process), pc := upd s.pc u k }, .other) := by
      unfold LSys.step; rw [if_neg (by rw [hd]; simp), hpc]
    exact go ihk h s _ 0 _ r hd ho hdi hs (fun c hc => by cases hc) ho hd rfl (upd_same _ _ _)
  | isInit k ihk =>
    intro h s r hd ho hdi hpc
    have hs : s.step u 0 = some ({ s with pc := upd s.pc u (k s.inited) }, .other) := by
      unfold LSys.step; rw [if_neg (by rw [hd]; simp), hpc]
    exact go (ihk _) h s _ 0 _ r hd ho hdi hs (fun c hc => by cases hc) ho hd rfl (upd_same _ _ _)
  | publish k ihk =>
    intro h s r hd ho hdi hpc
    have hs : s.step u 0 = some ({ s with inited := true, pc := upd s.pc u k }, .publish) := by
      unfold LSys.step; rw [if_neg (by rw [hd]; simp), hpc]
    exact go ihk h s _ 0 _ r hd ho hdi hs (fun c hc => by cases hc) ho hd rfl (upd_same _ _ _)
  | getArena k ihk =>
    intro h s r hd ho hdi hpc
    have hs : s.step u 0 = some ({ s with pc := upd s.pc u (k (s.arena u)) }, .other) := by
      unfold LSys.step; rw [if_neg (by rw [hd]; simp), hpc]
    exact go (ihk _) h s _ 0 _ r hd ho hdi hs (fun c hc => by cases hc) ho hd rfl (upd_same _ _ _)
  | nextArena k ihk =>
    intro h s r hd ho hdi hpc
    have hs : s.step u 0 = some ({ s with counter := (s.counter + 1) % 2 ^ 32, pc := upd s.pc u (k s.counter) }, .other) := by
      unfold LSys.step; rw [if_neg (by rw [hd]; simp), hpc]
    exact go (ihk _) h s _ 0 _ r hd ho hdi hs (fun c hc => by cases hc) ho hd rfl (upd_same _ _ _)
  | setArena a k ihk =>
    intro h s r hd ho hdi hpc
    have hs : s.step u 0 = some ({ s with arena := upd s.arena u a, pc := upd s.pc u k }, .other) := by
      unfold LSys.step; rw [if_neg (by rw [hd]; simp), hpc]
    exact go ihk h s _ 0 _ r hd ho hdi hs (fun c hc => by cases hc) ho hd rfl (upd_same _ _ _)
  | uses a k ihk =>
    intro h s r hd ho hdi hpc
    have hs : s.step u 0 = some ({ s with pc := upd s.pc u k }, .uses a) := by
      unfold LSys.step; rw [if_neg (by rw [hd]; simp), hpc]
    exact go ihk h s _ 0 _ r hd ho hdi hs (fun c hc => by cases hc) ho hd rfl (upd_same _ _ _)
  | atfork k ihk =>
    intro h s r hd ho hdi hpc
    have hs : s.step u 0 = some ({ s with registered := true, pc := upd s.pc u k }, .other) := by
      unfold LSys.step; rw [if_neg (by rw [hd]; simp), hpc]
    exact go ihk h s _ 0 _ r hd ho hdi hs (fun c hc => by cases hc) ho hd rfl (upd_same _ _ _)
  | handlers k ihk =>
    intro h s r hd ho hdi hpc
    have hs : s.step u 0 = some ({ s with pc := upd s.pc u (k s.registered) }, .other) := by
      unfold LSys.step; rw [if_neg (by rw [hd]; simp), hpc]
    exact go (ihk _) h s _ 0 _ r hd ho hdi hs (fun c hc => by cases hc) ho hd rfl (upd_same _ _ _)
  | fork p c ihp ihc =>
    intro h s r hd ho hdi hpc
    have hs : s.step u 0 = some ({ s with pc := upd s.pc u p }, .other) := by
      unfold LSys.step; rw [if_neg (by rw [hd]; simp), hpc]
    exact go ihp h s _ 0 _ r hd ho hdi hs (fun c hc => by cases hc) ho hd rfl (upd_same _ _ _)
  | choose k ihk =>
    intro h s r hd ho hdi hpc
    have hs : s.step u 0 = some ({ s with pc := upd s.pc u (k 0) }, .other) := by
      unfold LSys.step; rw [if_neg (by rw [hd]; simp), hpc]
    exact go (ihk _) h s _ 0 _ r hd ho hdi hs (fun c hc => by cases hc) ho hd rfl (upd_same _ _ _)

/-- Every lock that is held can be released. -/
theorem canFree (hna : 0 < d.na) : ∀ m l, 3 + d.na * d.nc ≤ d.rank l + m → ∀ h s u, LReach d h s → s.dead = false → s.owner l = .held u → CanFree d s l := by
  intro m
  induction m with
  | zero =>
    intro l hm h s u r hd ho
    obtain ⟨st, j⟩ := r.inv hna
    have := rank_le (d := d) (j.valid u l ((j.own u l).mpr ho))
    omega
  | succ m ihm =>
    intro l hm h s u r hd ho
    have ih : ∀ l', d.rank l < d.rank l' → ∀ h s v, LReach d h s → s.dead = false → s.owner l' = .held v → CanFree d s l' :=
      fun l' hl' h s v => ihm l' (by omega) h s v
    have hfalse := canFree_code hna (u := u) ih false (fun h s r hd ho hdi hpc => by
      obtain ⟨st, j⟩ := r.inv hna
      have w := j.wf u
      rw [hpc] at w
      have := ((w.1 l).mp ((j.own u l).mpr ho)).1
      rw [j.dis u, hdi] at this
      cases this)
    have htrue := canFree_code hna (u := u) ih true (fun h s r hd ho hdi hpc => by
      obtain ⟨st, j⟩ := r.inv hna
      have hf : s.forked = true := by
        unfold LSys.forked
        cases e : s.solo with
        | none => rfl
        | some v =>
          by_cases e' : u = v
          · subst e'; simp only [hpc]
          · rw [((j.alone v e).2 u e').2] at hdi; cases hdi
      have hs : s.start d u .enable = some ({ s with pc := upd s.pc u (LCall.enable.code d), dis := upd s.dis u false, solo := none }, .start .enable) := by
        unfold LSys.start
        rw [hpc]
        simp only
        rw [if_neg (by rw [hd, hf]; simp), if_pos (show s.dis u = LCall.enable.isEnable from hdi)]
        rfl
      refine CanFree.cons ho (.start hs) (fun c hc => by cases hc; rfl) (fun v hv => ⟨upd_ne _ _ hv, fun _ => Iff.rfl, upd_ne _ _ hv⟩) (Or.inr (Or.inr ?_))
      exact hfalse _ _ _ (r.step (.start hs)) hd ho (upd_same _ _ _) rfl)
    cases hdi : s.dis u with
    | false => exact hfalse _ h s r hd ho hdi rfl
    | true => exact htrue _ h s r hd ho hdi rfl

/-- A thread that waits, waits for a thread that holds the lock. -/
theorem J.waits (j : J d s st) {l : Lock} {k : Code} (hpc : s.pc t = .lock l k) (ho : s.owner l ≠ .free) : ∃ u, u ≠ t ∧ s.owner l = .held u ∧ ∀ x, s.owner x = .held t → d.rank x < d.rank l := by
  have w := j.wf t
  rw [hpc] at w
  obtain ⟨w1, w2, w3, w4⟩ := w
  have h1 : ∀ x, s.owner x = .held t → d.rank x < d.rank l := fun x hx => w2 x ((j.own t x).mpr hx)
  cases e : s.owner l with
  | free => exact absurd e ho
  | lost =>
    obtain ⟨a, b⟩ := j.lost l e
    subst a
    rcases w1 with ⟨_, w1⟩ | ⟨w1, _⟩
    · rw [b t] at w1; cases w1
    · exact absurd w1 init_not_full
  | held u =>
    refine ⟨u, ?_, rfl, h1⟩
    rintro rfl
    have := h1 l e
    omega

/-- Every call can be brought to its end. -/
theorem finish_code (hna : 0 < d.na) (K : Code) : ∀ h s, LReach d h s → s.dead = false → s.pc t = K →
    ∃ p s', Path d s p s' ∧ (s'.dead = true ∨ s'.pc t = .done) ∧ ∀ e ∈ p, ∀ c, e.2 = .start c → c = .enable := by
  have go : ∀ {K' : Code}, (∀ h s, LReach d h s → s.dead = false → s.pc t = K' → ∃ p s', Path d s p s' ∧ (s'.dead = true ∨ s'.pc t = .done) ∧ ∀ e ∈ p, ∀ c, e.2 = .start c → c = .enable) →
      ∀ h s s1 n o, LReach d h s → s.step t n = some (s1, o) → (∀ c, o ≠ .start c) → s1.dead = false → s1.pc t = K' →
      ∃ p s', Path d s p s' ∧ (s'.dead = true ∨ s'.pc t = .done) ∧ ∀ e ∈ p, ∀ c, e.2 = .start c → c = .enable := by
    intro K' ih h s s1 n o r hs hst hd1 hpc
    obtain ⟨p, s', h1, h2, h3⟩ := ih _ s1 (r.step (.run hs)) hd1 hpc
    refine ⟨_, s', .cons (.run hs) h1, h2, ?_⟩
    intro e he
    rcases List.mem_cons.mp he with rfl | he
    · exact fun c hc => absurd hc (hst c)
    · exact h3 e he
  induction K with
  | done => exact fun h s r hd hpc => ⟨[], s, .nil s, Or.inr hpc, by simp⟩
  | bad =>
    intro h s r _ hpc
    obtain ⟨st, j⟩ := r.inv hna
    have := j.wf t
    rw [hpc] at this
    exact this.elim
  | fatal =>
    intro h s r hd hpc
    have hs : s.step t 0 = some ({ s with dead := true }, .other) := by
      unfold LSys.step; rw [if_neg (by rw [hd]; simp), hpc]
    exact ⟨_, _, .cons (.run hs) (.nil _), Or.inl rfl, by simp⟩
  | lock l k ihk =>
    intro h s r hd hpc
    have take : ∀ h s, LReach d h s → s.dead = false → s.pc t = .lock l k → s.owner l = .free →
        ∃ p s', Path d s p s' ∧ (s'.dead = true ∨ s'.pc t = .done) ∧ ∀ e ∈ p, ∀ c, e.2 = .start c → c = .enable := by
      intro h s r hd hpc hf
      have hs : s.step t 0 = some ({ s with owner := upd s.owner l (.held t), pc := upd s.pc t k }, .lock l) := by
        unfold LSys.step; rw [if_neg (by rw [hd]; simp), hpc]; simp only; rw [if_pos hf]
      exact go ihk h s _ 0 _ r hs (fun c hc => by cases hc) hd (upd_same _ _ _)
    by_cases hf : s.owner l = .free
    · exact take h s r hd hpc hf
    obtain ⟨st, j⟩ := r.inv hna
    obtain ⟨u, hu, ho, hr⟩ := j.waits hpc hf
    obtain ⟨p, s1, h1, h2, h3, h4⟩ := canFree hna _ l (Nat.le_add_left _ _) h s u r hd ho
    obtain ⟨h', r'⟩ := h1.reach r
    rcases Bool.eq_false_or_eq_true s1.dead with hd1 | hd1
    · exact ⟨p, s1, h1, Or.inl hd1, h3⟩
    obtain ⟨q, s2, h5, h6, h7⟩ := take h' s1 r' hd1 ((h4 t hr).2.1.trans hpc) (h2.resolve_left (by rw [hd1]; simp))
    refine ⟨p ++ q, s2, h1.append h5, h6, ?_⟩
    intro e he
    rcases List.mem_append.mp he with he | he
    · exact h3 e he
    · exact h7 e he
  | touch x k ihk =>
    intro h s r hd hpc
    have hs : s.step t 0 = some ({ s with pc := upd s.pc t k }, .touch x) := by
      unfold LSys.step; rw [if_neg (by rw [hd]; simp), hpc]
    exact go ihk h s _ 0 _ r hs (fun c hc => by cases hc) hd (upd_same _ _ _)
  | seed x k ihk =>
    intro h s r hd hpc
    have hs : s.step t 0 = some ({ s with seeded := upd s.seeded x (some s.process), pc := upd s.pc t k }, .other) := by
      unfold LSys.step; rw [if_neg (by rw [hd]; simp), hpc]
    exact go ihk h s _ 0 _ r hs (fun c hc => by cases hc) hd (upd_same _ _ _)
  | isInit k ihk =>
    intro h s r hd hpc
    have hs : s.step t 0 = some ({ s with pc := upd s.pc t (k s.inited) }, .other) := by
      unfold LSys.step; rw [if_neg (by rw [hd]; simp), hpc]
    exact go (ihk _) h s _ 0 _ r hs (fun c hc => by cases hc) hd (upd_same _ _ _)
  | publish k ihk =>
    intro h s r hd hpc
    have hs : s.step t 0 = some ({ s with inited := true, pc := upd s.pc t k }, .publish) := by
      unfold LSys.step; rw [if_neg (by rw [hd]; simp), hpc]
    exact go ihk h s _ 0 _ r hs (fun c hc => by cases hc) hd (upd_same _ _ _)
  | getArena k ihk =>
    intro h s r hd hpc
    have hs : s.step t 0 = some ({ s with pc := upd s.pc t (k (s.arena t)) }, .other) := by
      unfold LSys.step; rw [if_neg (by rw [hd]; simp), hpc]
    exact go (ihk _) h s _ 0 _ r hs (fun c hc => by cases hc) hd (upd_same _ _ _)
  | nextArena k ihk =>
    intro h s r hd hpc
    have hs : s.step t 0 = some ({ s with counter := (s.counter + 1) % 2 ^ 32, pc := upd s.pc t (k s.counter) }, .other) := by
      unfold LSys.step; rw [if_neg (by rw [hd]; simp), hpc]
    exact go (ihk _) h s _ 0 _ r hs (fun c hc => by cases hc) hd (upd_same _ _ _)
  | setArena a k ihk =>
    intro h s r hd hpc
    have hs : s.step t 0 = some ({ s with arena := upd s.arena t a, pc := upd s.pc t k }, .other) := by
      unfold LSys.step; rw [if_neg (by rw [hd]; simp), hpc]
    exact go ihk h s _ 0 _ r hs (fun c hc => by cases hc) hd (upd_same _ _ _)
  | uses a k ihk =>
    intro h s r hd hpc
    have hs : s.step t 0 = some ({ s with pc := upd s.pc t k }, .uses a) := by
      unfold LSys.step; rw [if_neg (by rw [hd]; simp), hpc]
    exact go ihk h s _ 0 _ r hs (fun c hc => by cases hc) hd (upd_same _ _ _)
  | atfork k ihk =>
    intro h s r hd hpc
    have hs : s.step t 0 = some ({ s with registered := true, pc := upd s.pc t k }, .other) := by
      unfold LSys.step; rw [if_neg (by rw [hd]; simp), hpc]
    exact go ihk h s _ 0 _ r hs (fun c hc => by cases hc) hd (upd_same _ _ _)
  | handlers k ihk =>
    intro h s r hd hpc
    have hs : s.step t 0 = some ({ s with pc := upd s.pc t (k s.registered) }, .other) := by
      unfold LSys.step; rw [if_neg (by rw [hd]; simp), hpc]
    exact go (ihk _) h s _ 0 _ r hs (fun c hc => by cases hc) hd (upd_same _ _ _)
  | fork p c ihp ihc =>
    intro h s r hd hpc
    have hs : s.step t 0 = some ({ s with pc := upd s.pc t p }, .other) := by
      unfold LSys.step; rw [if_neg (by rw [hd]; simp), hpc]
    exact go ihp h s _ 0 _ r hs (fun c hc => by cases hc) hd (upd_same _ _ _)
  | choose k ihk =>
    intro h s r hd hpc
    have hs : s.step t 0 = some ({ s with pc := upd s.pc t (k 0) }, .other) := by
      unfold LSys.step; rw [if_neg (by rw [hd]; simp), hpc]
    exact go (ihk _) h s _ 0 _ r hs (fun c hc => by cases hc) hd (upd_same _ _ _)
  | unlock x k ihk =>
    intro h s r hd hpc
    have hs : s.step t 0 = some ({ s with owner := upd s.owner x .free, pc := upd s.pc t k }, .unlock x) := by
      unfold LSys.step; rw [if_neg (by rw [hd]; simp), hpc]
    exact go ihk h s _ 0 _ r hs (fun c hc => by cases hc) hd (upd_same _ _ _)
  | newLock x k ihk =>
    intro h s r hd hpc
    have hs : s.step t 0 = some ({ s with owner := upd s.owner x .free, pc := upd s.pc t k }, .other) := by
      unfold LSys.step; rw [if_neg (by rw [hd]; simp), hpc]
    exact go ihk h s _ 0 _ r hs (fun c hc => by cases hc) hd (upd_same _ _ _)

end HM.L
