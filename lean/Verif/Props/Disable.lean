import Verif.Props.Locks
/-
C60: `malloc_disable` keeps all other threads out of the allocator until `malloc_enable`, about every schedule of every number of threads, in the model of Locks.lean.
-/
namespace HM.L

variable {d : Dim} {s s' : LSys} {h : List (Nat × Op)} {t u : Nat}

/-- The last call that this thread has begun, in a history whose last step comes first. -/
def lastCall (t : Nat) : List (Nat × Op) → Option LCall
  | [] => none
  | (u, .start c) :: h => if u = t then some c else lastCall t h
  | _ :: h => lastCall t h

theorem lastCall_skip {e : Nat × Op} (he : e.1 ≠ t ∨ ∀ c, e.2 ≠ .start c) : lastCall t (e :: h) = lastCall t h := by
  obtain ⟨u, o⟩ := e
  cases o <;> try rfl
  rename_i c
  rcases he with he | he
  · simp only [lastCall]; rw [if_neg he]
  · exact absurd rfl (he c)

theorem lastCall_filter (t : Nat) (h : List (Nat × Op)) : lastCall t (h.filter fun e => e.1 = t) = lastCall t h := by
  induction h with
  | nil => rfl
  | cons e h ih =>
    by_cases he : e.1 = t
    · rw [List.filter_cons_of_pos (by simpa using he)]
      obtain ⟨u, o⟩ := e
      cases o <;> simp only [lastCall, ih]
    · rw [List.filter_cons_of_neg (by simpa using he), ih, lastCall_skip (Or.inl he)]

theorem lastCall_none {u : Nat} (hu : u ≠ t) (h : List (Nat × Op)) : lastCall u (h.filter fun e => e.1 = t) = none := by
  induction h with
  | nil => rfl
  | cons e h ih =>
    by_cases he : e.1 = t
    · rw [List.filter_cons_of_pos (by simpa using he), lastCall_skip (Or.inl (by rw [he]; exact Ne.symm hu)), ih]
    · rw [List.filter_cons_of_neg (by simpa using he), ih]

theorem step_dis {n : Nat} {o : Op} (h : s.step t n = some (s', o)) : s'.dis = s.dis ∧ s'.solo = s.solo ∧ ∀ c, o ≠ .start c := by
  unfold LSys.step at h
  by_cases hd : s.dead = true
  · rw [if_pos hd] at h; cases h
  rw [if_neg hd] at h
  cases hc : s.pc t <;> rw [hc] at h <;> simp only at h
  case done => cases h
  case bad => cases h
  case lock x k =>
    by_cases hf : s.owner x = .free
    · rw [if_pos hf] at h; cases h; exact ⟨rfl, rfl, fun c e => by cases e⟩
    · rw [if_neg hf] at h; cases h
  all_goals cases h; exact ⟨rfl, rfl, fun c e => by cases e⟩

theorem start_dis {c : LCall} {o : Op} (hs : s.start d t c = some (s', o)) :
    s'.dis = upd s.dis t c.isDisable ∧ o = .start c ∧ s.pc t = .done ∧ s.dis t = c.isEnable := by
  unfold LSys.start at hs
  cases hc : s.pc t <;> rw [hc] at hs <;> simp only at hs <;> try cases hs
  by_cases hd : (s.dead || !s.forked) = true
  · rw [if_pos hd] at hs; cases hs
  rw [if_neg hd] at hs
  by_cases he : s.dis t = c.isEnable
  · rw [if_pos he] at hs; cases hs; exact ⟨rfl, rfl, rfl, he⟩
  · rw [if_neg he] at hs; cases hs

/-- The record of the model, who has disabled the allocator, says the same as the history. -/
theorem LReach.dis_iff (r : LReach d h s) (t : Nat) : s.dis t = true ↔ lastCall t h = some .disable := by
  induction r generalizing t with
  | exec n => exact ⟨(fun e => by cases e), (fun e => by cases e)⟩
  | @step h s s' u o r hs ih =>
    cases hs with
    | run hs =>
      obtain ⟨h1, _, h2⟩ := step_dis hs
      rw [h1, lastCall_skip (Or.inr h2)]
      exact ih t
    | start hs =>
      rename_i c
      obtain ⟨h1, rfl, _⟩ := start_dis hs
      rw [h1]
      by_cases e : t = u
      · subst e
        rw [upd_same]
        simp only [lastCall, if_true]
        cases c <;> simp [LCall.isDisable]
      · rw [upd_ne _ _ e, lastCall_skip (Or.inl (Ne.symm e))]
        exact ih t
  | @fork h s u n r hp hn hd ih =>
    by_cases e : t = u
    · subst e
      rw [lastCall_filter, ← ih t]
      simp [LSys.forkChild]
    · rw [lastCall_none e]
      simp [LSys.forkChild, e]

/-- The thread's `malloc_disable` has returned and it has not called `malloc_enable` since. -/
def Disabled (s : LSys) (h : List (Nat × Op)) (t : Nat) : Prop := s.pc t = .done ∧ lastCall t h = some .disable

theorem Disabled.held (hna : 0 < d.na) (r : LReach d h s) (hd : Disabled s h t) : s.inited = true ∧ ∀ l ∈ d.full, s.owner l = .held t := by
  obtain ⟨st, j⟩ := r.inv hna
  have w := j.wf t
  rw [hd.1] at w
  have e : (st t).dis = true := (j.dis t).trans ((r.dis_iff t).mpr hd.2)
  exact ⟨j.yes t (w.2.2.2.1 e), fun l hl => (j.own t l).mp ((w.1 l).mpr ⟨e, hl⟩)⟩

theorem Disabled.step (hd : Disabled s h t) {o : Op} (hs : LStep d s u o s') (hu : u ≠ t) : Disabled s' ((u, o) :: h) t := by
  refine ⟨?_, by rw [lastCall_skip (Or.inl hu)]; exact hd.2⟩
  cases hs with
  | run hs => rw [step_other hs (Ne.symm hu)]; exact hd.1
  | start hs => rw [start_other hs (Ne.symm hu)]; exact hd.1

/-- What another thread does while the allocator is disabled: it neither looks at nor changes anything that belongs to the allocator, begins no allocation that got past its lock,
takes no lock (but possibly the one of the initialisation, which it then finds done) and releases none of those that `malloc_disable` took. -/
theorem Disabled.out (hna : 0 < d.na) (r : LReach d h s) (hd : Disabled s h t) {o : Op} (hs : LStep d s u o s') (hu : u ≠ t) :
    (∀ l, o ≠ .touch l) ∧ (∀ l, o = .lock l → l = .init) ∧ (∀ l, o = .unlock l → l = .init) ∧ o ≠ .publish := by
  obtain ⟨hi, ho⟩ := hd.held hna r
  obtain ⟨_, f2, _, f4, f5, _⟩ := step_facts hna r hs
  refine ⟨?_, ?_, ?_, ?_⟩
  · rintro l rfl
    have := (c37_exclusive hna r hs l).1 rfl
    rw [ho l (f4 l rfl).2.1] at this
    cases this; exact hu rfl
  · rintro l rfl
    by_cases hl : l = .init
    · exact hl
    · have := ((c37_exclusive hna r hs l).2.2 rfl).1
      rw [ho l (f5 l rfl hl).2] at this
      cases this
  · rintro l rfl
    have h1 := ((c37_exclusive hna r hs l).2.1 rfl).1
    obtain ⟨st, j⟩ := r.inv hna
    rcases j.valid u l ((j.own u l).mpr h1) with e | e
    · exact e
    · rw [ho l e] at h1; cases h1; exact absurd rfl hu
  · rintro rfl
    rw [(f2 rfl).1] at hi; cases hi

/-- C60. Once a thread's `malloc_disable` has returned, the allocator stays as it is until this thread calls `malloc_enable`: whatever the other threads call, and however
their steps are interleaved, none of them reads or changes anything that a lock of the allocator protects, and none of them gets one of these locks. -/
theorem c60_nobody_else (hna : 0 < d.na) (r : LReach d h s) (hd : Disabled s h t) {p : List (Nat × Op)} (q : Path d s p s') (hp : ∀ e ∈ p, e.1 ≠ t) :
    (∀ e ∈ p, (∀ l, e.2 ≠ .touch l) ∧ ∀ l, e.2 = .lock l → l = .init) ∧ s'.owner .region = .held t ∧ ∀ a c, a < d.na → c < d.nc → s'.owner (.cls a c) = .held t := by
  induction q generalizing h with
  | nil s =>
    have := (hd.held hna r).2
    exact ⟨(fun e he => by cases he), this _ (region_full d), fun a c ha hc => this _ (cls_full ha hc)⟩
  | @cons s s1 s2 u o p hs q ih =>
    have hu : u ≠ t := hp (u, o) List.mem_cons_self
    obtain ⟨h1, h2⟩ := ih (r.step hs) (hd.step hs hu) (fun e he => hp e (List.mem_cons_of_mem _ he))
    refine ⟨fun e he => ?_, h2⟩
    rcases List.mem_cons.mp he with rfl | he
    · have := hd.out hna r hs hu
      exact ⟨this.1, this.2.1⟩
    · exact h1 e he

/-- C60. No two threads have the allocator disabled at the same time. -/
theorem c60_one (hna : 0 < d.na) (r : LReach d h s) (h1 : Disabled s h t) (h2 : Disabled s h u) : t = u := by
  have a := (h1.held hna r).2 _ (region_full d)
  have b := (h2.held hna r).2 _ (region_full d)
  rw [a] at b; cases b; rfl

/-- C60. When `malloc_disable` returns, no other thread is between taking and releasing a lock of the allocator: all others are outside, or wait, or have not
reached their first lock, or have released their last one. -/
theorem c60_quiet (hna : 0 < d.na) (r : LReach d h s) (hd : Disabled s h t) (hu : u ≠ t) (l : Lock) (hl : l ≠ .init) : s.owner l ≠ .held u := by
  obtain ⟨st, j⟩ := r.inv hna
  intro e
  rcases j.valid u l ((j.own u l).mpr e) with e' | e'
  · exact hl e'
  · rw [(hd.held hna r).2 l e'] at e; cases e; exact hu rfl

theorem unlockAll_path (d : Dim) (t : Nat) (ls : List Lock) : ∀ s, s.dead = false → s.pc t = forLocks .unlock ls .done →
    ∃ p s', Path d s p s' ∧ (∀ e ∈ p, e.1 = t) ∧ (∀ e ∈ p, ∀ c, e.2 ≠ .start c) ∧ s'.pc t = .done ∧ s'.dead = false ∧
      (∀ l ∈ ls, s'.owner l = .free) ∧ (∀ l, s.owner l = .free → s'.owner l = .free) ∧ s'.dis = s.dis := by
  induction ls with
  | nil => intro s hd hp; exact ⟨[], s, .nil s, (fun e he => by cases he), (fun e he => by cases he), hp, hd, (fun l hl => by cases hl), (fun _ h => h), rfl⟩
  | cons l ls ih =>
    intro s hd hp
    have hs : s.step t 0 = some ({ s with owner := upd s.owner l .free, pc := upd s.pc t (forLocks .unlock ls .done) }, .unlock l) := by
      unfold LSys.step
      rw [hd, hp]
      rfl
    obtain ⟨p, s', q, h1, h2, h3, h4, h5, h6, h7⟩ := ih { s with owner := upd s.owner l .free, pc := upd s.pc t (forLocks .unlock ls .done) } hd (upd_same _ _ _)
    refine ⟨(t, .unlock l) :: p, s', .cons (.run hs) q, ?_, ?_, h3, h4, ?_, ?_, h7⟩
    · intro e he
      rcases List.mem_cons.mp he with rfl | he
      · rfl
      · exact h1 e he
    · intro e he
      rcases List.mem_cons.mp he with rfl | he
      · intro c e; cases e
      · exact h2 e he
    · intro x hx
      rcases List.mem_cons.mp hx with rfl | hx
      · exact h6 _ (upd_same _ _ _)
      · exact h5 x hx
    · intro x hx
      refine h6 x ?_
      by_cases e : x = l
      · subst e; exact upd_same _ _ _
      · exact (upd_ne _ _ e).trans hx

/-- C60. `malloc_enable` never waits: without any step of another thread it runs to its end, after which all these locks are free. -/
theorem c60_enable (hna : 0 < d.na) (r : LReach d h s) (hdead : s.dead = false) (hd : Disabled s h t) :
    ∃ p s', Path d s ((t, .start .enable) :: p) s' ∧ (∀ e ∈ p, e.1 = t) ∧ (∀ e ∈ p, ∀ c, e.2 ≠ .start c) ∧ s'.pc t = .done ∧ s'.dead = false ∧
      s'.owner .region = .free ∧ ∀ a c, a < d.na → c < d.nc → s'.owner (.cls a c) = .free := by
  obtain ⟨st, j⟩ := r.inv hna
  have hdis := (r.dis_iff t).mpr hd.2
  have hi := (hd.held hna r).1
  have hf : s.solo = none := by
    cases e : s.solo with
    | none => rfl
    | some v =>
      obtain ⟨a, b⟩ := j.alone v e
      by_cases ev : t = v
      · subst ev; rw [hdis] at a; cases a
      · rw [(b t ev).2] at hdis; cases hdis
  let s1 : LSys := { s with pc := upd s.pc t (LCall.enable.code d), dis := upd s.dis t false, solo := none }
  have h1 : s.start d t .enable = some (s1, .start .enable) := by
    have e1 : (s.dead || !s.forked) = false := by unfold LSys.forked; rw [hdead, hf]; rfl
    unfold LSys.start
    rw [hd.1]
    simp only [e1]
    rw [if_neg (by simp), if_pos (show s.dis t = LCall.enable.isEnable from hdis)]
    rfl
  let s2 : LSys := { s1 with pc := upd s1.pc t (fullUnlock d .done) }
  have p1 : s1.pc t = .isInit fun b => if b then fullUnlock d .done else .fatal := upd_same _ _ _
  have h2 : s1.step t 0 = some (s2, .other) := by
    have e1 : ¬ s1.dead = true := by rw [show s1.dead = false from hdead]; simp
    have e2 : (if s1.inited then fullUnlock d .done else .fatal) = fullUnlock d .done := if_pos hi
    unfold LSys.step
    rw [if_neg e1, p1]
    simp only [e2]
    rfl
  obtain ⟨p, s', q, q1, q2, q3, q4, q5, _⟩ := unlockAll_path d t d.full s2 hdead (upd_same _ _ _)
  refine ⟨(t, .other) :: p, s', .cons (.start h1) (.cons (.run h2) q), ?_, ?_, q3, q4, q5 _ (region_full d), fun a c ha hc => q5 _ (cls_full ha hc)⟩
  · intro e he
    rcases List.mem_cons.mp he with rfl | he
    · rfl
    · exact q1 e he
  · intro e he
    rcases List.mem_cons.mp he with rfl | he
    · intro c e; cases e
    · exact q2 e he

theorem run_path_ne (d : Dim) (l : List (Nat × (LCall ⊕ Nat))) (t : Nat) (hl : ∀ e ∈ l, e.1 ≠ t) : ∀ s h s' h', run d l s h = some (s', h') →
    ∃ p, Path d s p s' ∧ (∀ e ∈ p, e.1 ≠ t) ∧ p.length = l.length := by
  induction l with
  | nil => intro s h s' h' e; cases e; exact ⟨[], .nil s, (fun e he => by cases he), rfl⟩
  | cons x l ih =>
    have hx : x.1 ≠ t := hl x List.mem_cons_self
    have ih := ih fun e he => hl e (List.mem_cons_of_mem _ he)
    obtain ⟨u, c | n⟩ := x <;> intro s h s' h' e <;> unfold run at e
    · cases hs : s.start d u c with
      | none => rw [hs] at e; cases e
      | some y =>
        obtain ⟨s1, o⟩ := y
        rw [hs] at e
        obtain ⟨p, q, h1, h2⟩ := ih _ _ _ _ e
        exact ⟨(u, o) :: p, .cons (.start hs) q, (fun e he => by rcases List.mem_cons.mp he with rfl | he; exact hx; exact h1 e he), congrArg (· + 1) h2⟩
    · cases hs : s.step u n with
      | none => rw [hs] at e; cases e
      | some y =>
        obtain ⟨s1, o⟩ := y
        rw [hs] at e
        obtain ⟨p, q, h1, h2⟩ := ih _ _ _ _ e
        exact ⟨(u, o) :: p, .cons (.run hs) q, (fun e he => by rcases List.mem_cons.mp he with rfl | he; exact hx; exact h1 e he), congrArg (· + 1) h2⟩

/-- Thread 1 has used the allocator, thread 2 has then disabled it. -/
def exDisabled : List (Nat × (LCall ⊕ Nat)) := exFirst ++ ((2, .inl .disable) :: go 2 9)

/-- Thread 1 calls `malloc` and thread 3 `malloc_info`. -/
def exOut : List (Nat × (LCall ⊕ Nat)) := ((1, .inl .alloc) :: go 1 4) ++ ((3, .inl .mallocInfo) :: go 3 1)

def disabledB (s : LSys) (h : List (Nat × Op)) (t : Nat) : Bool :=
  (match s.pc t with | .done => true | _ => false) && (match lastCall t h with | some .disable => true | _ => false) && !s.dead

theorem disabledB_iff (e : disabledB s h t = true) : Disabled s h t ∧ s.dead = false := by
  unfold disabledB at e
  simp only [Bool.and_eq_true, Bool.not_eq_true'] at e
  obtain ⟨⟨e1, e2⟩, e3⟩ := e
  refine ⟨⟨?_, ?_⟩, e3⟩
  · cases hc : s.pc t <;> rw [hc] at e1 <;> first | rfl | cases e1
  · cases hc : lastCall t h with
    | none => rw [hc] at e2; cases e2
    | some c => rw [hc] at e2; cases c <;> first | rfl | cases e2

/-- The hypotheses of C60 are met: a state with a disabled allocator, and seven steps of other threads after which two of them wait, one in `malloc` and one in `malloc_info`. -/
theorem ex_disabled : ∃ h s p s', LReach ⟨2, 2⟩ h s ∧ Disabled s h 2 ∧ s.dead = false ∧ Path ⟨2, 2⟩ s p s' ∧ (∀ e ∈ p, e.1 ≠ 2) ∧ p.length = 7 ∧
    waits s' 1 (.cls 0 1) 2 = true ∧ waits s' 3 (.cls 0 0) 2 = true := by
  have key : (match run ⟨2, 2⟩ exDisabled (LSys.fresh ⟨2, 2⟩ 1) [] with
      | some (s, h) => disabledB s h 2 && (match run ⟨2, 2⟩ exOut s h with
          | some (s', _) => waits s' 1 (.cls 0 1) 2 && waits s' 3 (.cls 0 0) 2
          | none => false)
      | none => false) = true := by decide +kernel
  cases hr : run ⟨2, 2⟩ exDisabled (LSys.fresh ⟨2, 2⟩ 1) [] with
  | none => rw [hr] at key; cases key
  | some x =>
    obtain ⟨s, h⟩ := x
    rw [hr] at key
    simp only [Bool.and_eq_true] at key
    obtain ⟨k1, k2⟩ := key
    cases hr' : run ⟨2, 2⟩ exOut s h with
    | none => rw [hr'] at k2; cases k2
    | some y =>
      obtain ⟨s', h'⟩ := y
      rw [hr'] at k2
      simp only [Bool.and_eq_true] at k2
      obtain ⟨p, q, h1, h2⟩ := run_path_ne ⟨2, 2⟩ exOut 2 (by decide) _ _ _ _ hr'
      exact ⟨h, s, p, s', run_reach _ _ _ _ _ _ (.exec 1) hr, (disabledB_iff k1).1, (disabledB_iff k1).2, q, h1, h2.trans (by decide), k2.1, k2.2⟩

example : ∃ h s p s', LReach ⟨2, 2⟩ h s ∧ Path ⟨2, 2⟩ s p s' ∧ p.length = 7 ∧ (∀ e ∈ p, (∀ l, e.2 ≠ .touch l) ∧ ∀ l, e.2 = .lock l → l = .init) := by
  obtain ⟨h, s, p, s', r, hd, _, q, h1, h2, _⟩ := ex_disabled
  exact ⟨h, s, p, s', r, q, h2, (c60_nobody_else (by decide) r hd q h1).1⟩

end HM.L
