import Verif.LocksProgress
/-
C37 (no deadlock), C38 (fork) and C39 (initialisation and arenas), about every schedule of every number of threads, in the model of Locks.lean, whose
steps are single lock operations and accesses to shared variables.
-/
namespace HM.L

variable {d : Dim} {s s' : LSys} {h : List (Nat × Op)} {t : Nat}

/-! ### Runs, for the examples -/

/-- Steps of threads: `(t, .inl c)` begins the call `c`, `(t, .inr n)` is one step with the branch `n`. -/
def run (d : Dim) : List (Nat × (LCall ⊕ Nat)) → LSys → List (Nat × Op) → Option (LSys × List (Nat × Op))
  | [], s, h => some (s, h)
  | (t, .inl c) :: r, s, h => match s.start d t c with | some (s', o) => run d r s' ((t, o) :: h) | none => none
  | (t, .inr n) :: r, s, h => match s.step t n with | some (s', o) => run d r s' ((t, o) :: h) | none => none

theorem run_reach (d : Dim) (l : List (Nat × (LCall ⊕ Nat))) : ∀ s h s' h', LReach d h s → run d l s h = some (s', h') → LReach d h' s' := by
  induction l with
  | nil => intro s h s' h' r e; cases e; exact r
  | cons x l ih =>
    obtain ⟨t, c | n⟩ := x
    · intro s h s' h' r e
      unfold run at e
      cases hs : s.start d t c with
      | none => rw [hs] at e; cases e
      | some y => obtain ⟨s1, o⟩ := y; rw [hs] at e; exact ih _ _ _ _ (r.step (.start hs)) e
    · intro s h s' h' r e
      unfold run at e
      cases hs : s.step t n with
      | none => rw [hs] at e; cases e
      | some y => obtain ⟨s1, o⟩ := y; rw [hs] at e; exact ih _ _ _ _ (r.step (.run hs)) e

/-- A state of a process with this property is reachable. -/
theorem ex_run (d : Dim) (l : List (Nat × (LCall ⊕ Nat))) (q : LSys → List (Nat × Op) → Bool)
    (e : (match run d l (LSys.fresh d 1) [] with | some (s, h) => q s h | none => false) = true) : ∃ h s, LReach d h s ∧ q s h = true := by
  cases hr : run d l (LSys.fresh d 1) [] with
  | none => rw [hr] at e; cases e
  | some x =>
    obtain ⟨s, h⟩ := x
    rw [hr] at e
    exact ⟨h, s, run_reach d l _ _ _ _ (.exec 1) hr, e⟩

/-- `k` steps of thread `t`, taking branch 1. -/
def go (t k : Nat) : List (Nat × (LCall ⊕ Nat)) := List.replicate k (t, .inr 1)

def Lock.is (l x : Lock) : Bool := decide (l = x)

/-- The thread waits for this lock, which another thread holds. -/
def waits (s : LSys) (t : Nat) (l : Lock) (u : Nat) : Bool :=
  match s.pc t with | .lock x _ => decide (x = l) && decide (s.owner l = .held u) | _ => false

/-! ### C37 -/

theorem no_enable {p : List (Nat × Op)} (q : Path d s p s') (h1 : ∀ e ∈ p, ∀ c, e.2 = .start c → c = .enable) (h2 : ∀ u, s.dis u = false) :
    ∀ e ∈ p, ∀ c, e.2 ≠ .start c := by
  induction q with
  | nil => simp
  | @cons s s1 s2 t o p hs q ih =>
    have key : (∀ c, o ≠ .start c) ∧ ∀ u, s1.dis u = false := by
      cases hs with
      | run hs =>
        unfold LSys.step at hs
        by_cases hd : s.dead = true
        · rw [if_pos hd] at hs; cases hs
        rw [if_neg hd] at hs
        cases hc : s.pc t <;> rw [hc] at hs <;> simp only at hs
        case done => cases hs
        case bad => cases hs
        case lock l k =>
          by_cases hf : s.owner l = .free
          · rw [if_pos hf] at hs; cases hs; exact ⟨(fun c e => by cases e), h2⟩
          · rw [if_neg hf] at hs; cases hs
        all_goals cases hs; exact ⟨(fun c e => by cases e), h2⟩
      | start hs =>
        rename_i c
        exfalso
        unfold LSys.start at hs
        cases hc : s.pc t <;> rw [hc] at hs <;> simp only at hs <;> try cases hs
        by_cases hd : (s.dead || !s.forked) = true
        · rw [if_pos hd] at hs; cases hs
        rw [if_neg hd] at hs
        by_cases he : s.dis t = c.isEnable
        · rw [if_pos he] at hs
          cases hs
          have := h1 (t, .start c) List.mem_cons_self c rfl
          subst this
          rw [h2 t] at he
          cases he
        · rw [if_neg he] at hs; cases hs
    intro e he
    rcases List.mem_cons.mp he with rfl | he
    · exact key.1
    · exact ih (fun e he => h1 e (List.mem_cons_of_mem _ he)) key.2 e he

/-- C37. Whenever a thread waits for a lock of the allocator, the other threads can go on, without the waiting thread, until this lock is free (or the process
has been aborted). They need not begin any new call for this, except that a thread that has called `malloc_disable` must call `malloc_enable`. -/
theorem c37_release (hna : 0 < d.na) (r : LReach d h s) (hd : s.dead = false) {l : Lock} {k : Code} (hpc : s.pc t = .lock l k) (hw : s.owner l ≠ .free) :
    ∃ p s', Path d s p s' ∧ (s'.dead = true ∨ s'.owner l = .free) ∧ s'.pc t = .lock l k ∧ (∀ e ∈ p, e.1 ≠ t) ∧
      (∀ e ∈ p, ∀ c, e.2 = .start c → c = .enable) ∧ ((∀ u, s.dis u = false) → ∀ e ∈ p, ∀ c, e.2 ≠ .start c) := by
  obtain ⟨st, j⟩ := r.inv hna
  obtain ⟨u, hu, ho, hr⟩ := j.waits hpc hw
  obtain ⟨p, s1, h1, h2, h3, h4⟩ := canFree hna _ l (Nat.le_add_left _ _) h s u r hd ho
  exact ⟨p, s1, h1, h2, (h4 t hr).2.1.trans hpc, (h4 t hr).1, h3, no_enable h1 h3⟩

/-- C37. No deadlock: if a thread waits for a lock of the allocator then some other thread can make a step. This step is inside of a call, unless a thread has called
`malloc_disable` and not yet `malloc_enable`. -/
theorem c37_progress (hna : 0 < d.na) (r : LReach d h s) (hd : s.dead = false) {l : Lock} {k : Code} (hpc : s.pc t = .lock l k) (hw : s.owner l ≠ .free) :
    ∃ u o s', u ≠ t ∧ LStep d s u o s' ∧ ((∀ v, s.dis v = false) → ∀ c, o ≠ .start c) := by
  obtain ⟨p, s1, h1, h2, _, h4, _, h6⟩ := c37_release hna r hd hpc hw
  cases h1 with
  | nil =>
    rcases h2 with h2 | h2
    · rw [hd] at h2; cases h2
    · exact absurd h2 hw
  | cons hs _ => exact ⟨_, _, _, h4 _ List.mem_cons_self, hs, fun hv => h6 hv _ List.mem_cons_self⟩

/-- C37. Every call, of every thread, in every situation, can be brought to its end without any further calls but `malloc_enable`. -/
theorem c37_finishes (hna : 0 < d.na) (r : LReach d h s) (hd : s.dead = false) (t : Nat) :
    ∃ p s', Path d s p s' ∧ (s'.dead = true ∨ s'.pc t = .done) ∧ (∀ e ∈ p, ∀ c, e.2 = .start c → c = .enable) ∧
      ((∀ u, s.dis u = false) → ∀ e ∈ p, ∀ c, e.2 ≠ .start c) := by
  obtain ⟨p, s', h1, h2, h3⟩ := finish_code hna _ h s r hd (t := t) rfl
  exact ⟨p, s', h1, h2, h3, no_enable h1 h3⟩

/-- C37. Locks exclude each other: data is only touched by the thread that holds its lock, a lock is only released by the thread that holds it, and only taken when it is free. -/
theorem c37_exclusive (hna : 0 < d.na) (r : LReach d h s) {o : Op} (hs : LStep d s t o s') (l : Lock) :
    (o = .touch l → s.owner l = .held t) ∧ (o = .unlock l → s.owner l = .held t ∧ s'.owner l = .free) ∧ (o = .lock l → s.owner l = .free ∧ s'.owner l = .held t) := by
  obtain ⟨st, j⟩ := r.inv hna
  have w := j.wf t
  cases hs with
  | run hs =>
    unfold LSys.step at hs
    by_cases hd : s.dead = true
    · rw [if_pos hd] at hs; cases hs
    rw [if_neg hd] at hs
    cases hc : s.pc t <;> rw [hc] at hs w <;> simp only at hs
    case done => cases hs
    case bad => cases hs
    case lock x k =>
      by_cases hf : s.owner x = .free
      · rw [if_pos hf] at hs; cases hs
        exact ⟨(fun e => by cases e), (fun e => by cases e), (fun e => by cases e; exact ⟨hf, upd_same _ _ _⟩)⟩
      · rw [if_neg hf] at hs; cases hs
    case unlock x k =>
      cases hs
      exact ⟨(fun e => by cases e), (fun e => by cases e; exact ⟨(j.own t _).mp w.1, upd_same _ _ _⟩), (fun e => by cases e)⟩
    case touch x k =>
      cases hs
      exact ⟨(fun e => by cases e; exact (j.own t _).mp w.2.1), (fun e => by cases e), (fun e => by cases e)⟩
    all_goals cases hs; exact ⟨(fun e => by cases e), (fun e => by cases e), (fun e => by cases e)⟩
  | start hs =>
    rename_i c
    have : o = .start c := by
      unfold LSys.start at hs
      cases hc : s.pc t <;> rw [hc] at hs <;> simp only at hs <;> try cases hs
      by_cases hd : (s.dead || !s.forked) = true
      · rw [if_pos hd] at hs; cases hs
      rw [if_neg hd] at hs
      by_cases he : s.dis t = c.isEnable
      · rw [if_pos he] at hs; cases hs; rfl
      · rw [if_neg he] at hs; cases hs
    subst this
    exact ⟨(fun e => by cases e), (fun e => by cases e), (fun e => by cases e)⟩

/-- Two arenas with two classes each: thread 1 has initialised the allocator in a first `malloc`. -/
def exFirst : List (Nat × (LCall ⊕ Nat)) := (1, .inl .alloc) :: go 1 37

/-- Thread 1 is in a second `malloc` and holds the lock of its class, thread 2, in `fork`, waits for this lock while it holds others, one of which thread 3 waits for, in `mallinfo`. -/
def exChain : List (Nat × (LCall ⊕ Nat)) := exFirst ++ ((1, .inl .alloc) :: go 1 5) ++ ((2, .inl .fork) :: go 2 3) ++ ((3, .inl .mallinfo) :: go 3 1)

/-- The hypotheses of `c37_release`, `c37_progress` and `c37_finishes` hold in a state where a thread waits for one that waits for another one. -/
example : ∃ h s, LReach ⟨2, 2⟩ h s ∧ (waits s 3 .region 2 && waits s 2 (.cls 0 1) 1 && !s.dead && !s.dis 1 && !s.dis 2 && !s.dis 3) = true :=
  ex_run ⟨2, 2⟩ exChain (fun s _ => waits s 3 .region 2 && waits s 2 (.cls 0 1) 1 && !s.dead && !s.dis 1 && !s.dis 2 && !s.dis 3) (by decide +kernel)

/-- Also one in which a thread waits for one that has called `malloc_disable` and is back in the application. -/
example : ∃ h s, LReach ⟨2, 2⟩ h s ∧ (waits s 1 (.cls 0 1) 2 && !s.dead && s.dis 2 && (match s.pc 2 with | .done => true | _ => false)) = true :=
  ex_run ⟨2, 2⟩ (exFirst ++ ((2, .inl .disable) :: go 2 9) ++ ((1, .inl .alloc) :: go 1 4))
    (fun s _ => waits s 1 (.cls 0 1) 2 && !s.dead && s.dis 2 && (match s.pc 2 with | .done => true | _ => false)) (by decide +kernel)

/-- Thread 1 touches data, in a state in which another thread waits for the lock (`c37_exclusive`). -/
example : ∃ h s, LReach ⟨2, 2⟩ h s ∧ (match s.step 1 0 with | some (_, .touch l) => decide (l = .cls 0 1) && waits s 2 l 1 | _ => false) = true :=
  ex_run ⟨2, 2⟩ exChain (fun s _ => match s.step 1 0 with | some (_, .touch l) => decide (l = .cls 0 1) && waits s 2 l 1 | _ => false) (by decide +kernel)

/-! ### C39 -/

theorem start_op {c : LCall} {o : Op} (hs : s.start d t c = some (s', o)) : o = .start c ∧ s'.inited = s.inited ∧ s'.arena = s.arena := by
  unfold LSys.start at hs
  cases hc : s.pc t <;> rw [hc] at hs <;> simp only at hs <;> try cases hs
  by_cases hd : (s.dead || !s.forked) = true
  · rw [if_pos hd] at hs; cases hs
  rw [if_neg hd] at hs
  by_cases he : s.dis t = c.isEnable
  · rw [if_pos he] at hs; cases hs; exact ⟨rfl, rfl, rfl⟩
  · rw [if_neg he] at hs; cases hs

/-- What a step may do, depending on the initialisation. -/
theorem step_facts (hna : 0 < d.na) (r : LReach d h s) {o : Op} (hs : LStep d s t o s') :
    (s.inited = true → s'.inited = true) ∧ (o = .publish → s.inited = false ∧ s'.inited = true ∧ ∀ l ∈ d.full, s.seeded l = some s.process) ∧ (o ≠ .publish → s'.inited = s.inited) ∧
    (∀ l, o = .touch l → s.inited = true ∧ l ∈ d.full ∧ s.seeded l = some s.process) ∧ (∀ l, o = .lock l → l ≠ .init → s.inited = true ∧ l ∈ d.full) ∧
    (∀ a, o = .uses a → s.inited = true ∧ a < d.na ∧ (1 < d.na → s.arena t = a)) ∧
    (∀ u, s.arena u < d.na → s'.arena u = s.arena u) := by
  obtain ⟨st, j⟩ := r.inv hna
  have w := j.wf t
  cases hs with
  | run hs =>
    unfold LSys.step at hs
    by_cases hd : s.dead = true
    · rw [if_pos hd] at hs; cases hs
    rw [if_neg hd] at hs
    cases hc : s.pc t <;> rw [hc] at hs w <;> simp only at hs
    case done => cases hs
    case bad => cases hs
    case lock x k =>
      by_cases hf : s.owner x = .free
      · rw [if_pos hf] at hs; cases hs
        refine ⟨id, (fun e => by cases e), fun _ => rfl, (fun _ e => by cases e), ?_, (fun _ e => by cases e), fun _ _ => rfl⟩
        intro l e hl
        cases e
        rcases w.1 with w1 | w1
        · exact absurd w1.1 hl
        · exact ⟨j.yes t w1.2, w1.1⟩
      · rw [if_neg hf] at hs; cases hs
    case touch x k =>
      cases hs
      refine ⟨id, (fun e => by cases e), fun _ => rfl, ?_, (fun _ e => by cases e), (fun _ e => by cases e), fun _ _ => rfl⟩
      intro l e
      cases e
      obtain ⟨w1, w2, w3, w4, _⟩ := w
      have hi := j.yes t w4
      refine ⟨hi, w1, (j.unseeded hi x w1).resolve_right ?_⟩
      rintro ⟨u, S, h1, _⟩
      by_cases e : u = t
      · subst e; rw [w3] at h1; cases h1
      · have := (j.solo u S h1 hi).2 t (fun e' => e e'.symm)
        rw [hc] at this; cases this
    case publish k =>
      cases hs
      obtain ⟨w1, ⟨S, w2, w3⟩, _⟩ := w
      exact ⟨fun _ => rfl, fun _ => ⟨(j.no t w1).1, rfl, fun l hl => j.seeded t S w2 l (w3 l hl)⟩, fun e => absurd rfl e, (fun _ e => by cases e), (fun _ e => by cases e), (fun _ e => by cases e), fun _ _ => rfl⟩
    case setArena a k =>
      cases hs
      refine ⟨id, (fun e => by cases e), fun _ => rfl, (fun _ e => by cases e), (fun _ e => by cases e), (fun _ e => by cases e), ?_⟩
      intro u hu
      by_cases e : u = t
      · subst e
        have := j.arena u
        rw [w.1] at this
        have this : s.arena u = d.na := this
        omega
      · exact upd_ne _ _ e
    case uses a k =>
      cases hs
      refine ⟨id, (fun e => by cases e), fun _ => rfl, (fun _ e => by cases e), (fun _ e => by cases e), ?_, fun _ _ => rfl⟩
      intro b e
      cases e
      obtain ⟨w1, w2, w3, _⟩ := w
      refine ⟨j.yes t w3, ?_, fun h1 => ?_⟩
      · by_cases h1 : 1 < d.na
        · have := j.arena t
          rw [w1 h1] at this
          exact this.2
        · rw [w2 (by omega)]; exact hna
      · have := j.arena t
        rw [w1 h1] at this
        exact this.1
    all_goals cases hs; exact ⟨id, (fun e => by cases e), fun _ => rfl, (fun _ e => by cases e), (fun _ e => by cases e), (fun _ e => by cases e), fun _ _ => rfl⟩
  | start hs =>
    rename_i c
    obtain ⟨rfl, h1, h2⟩ := start_op hs
    rw [h1, h2]
    exact ⟨id, (fun e => by cases e), fun _ => rfl, (fun _ e => by cases e), (fun _ e => by cases e), (fun _ e => by cases e), fun _ _ => rfl⟩

def Op.isPublish : Op → Bool
  | .publish => true
  | _ => false

theorem countP_filter_le (p q : Nat × Op → Bool) (l : List (Nat × Op)) : (l.filter q).countP p ≤ l.countP p :=
  (List.filter_sublist (l := l) (p := q)).countP_le

/-- C39. The allocator is initialised at most once in the life of a process (counting, for a process created by `fork`, what the forking thread did before); it is not initialised
exactly as long as nobody did it. -/
theorem c39_once (hna : 0 < d.na) (r : LReach d h s) : h.countP (fun e => e.2.isPublish) ≤ 1 ∧ (s.inited = false → h.countP (fun e => e.2.isPublish) = 0) := by
  induction r with
  | exec => exact ⟨by simp, fun _ => rfl⟩
  | @step h s s' t o r hs ih =>
    obtain ⟨f1, f2, f3, _⟩ := step_facts hna r hs
    by_cases e : o = .publish
    · subst e
      obtain ⟨a, b, _⟩ := f2 rfl
      refine ⟨?_, fun hi => by rw [b] at hi; cases hi⟩
      rw [List.countP_cons, ih.2 a]
      simp [Op.isPublish]
    · have : o.isPublish = false := by cases o <;> first | rfl | exact absurd rfl e
      rw [List.countP_cons, f3 e]
      simp only [this]
      exact ih
  | @fork h s t n r hp hn hd ih =>
    have := countP_filter_le (fun e => e.2.isPublish) (fun e => decide (e.1 = t)) h
    exact ⟨Nat.le_trans this ih.1, fun hi => Nat.le_zero.mp ((ih.2 hi) ▸ this)⟩

/-- C39. No thread takes a lock of the allocator (but that of the initialisation), touches any of its data or uses an arena before the initialisation; the
initialisation happens after all random states have been seeded. -/
theorem c39_before_use (hna : 0 < d.na) (r : LReach d h s) {o : Op} (hs : LStep d s t o s') :
    (∀ l, o = .touch l → s.inited = true) ∧ (∀ l, o = .lock l → l ≠ .init → s.inited = true) ∧ (∀ a, o = .uses a → s.inited = true) ∧
    (o = .publish → s.inited = false ∧ s'.inited = true ∧ s.seeded .region = some s.process ∧ ∀ a c, a < d.na → c < d.nc → s.seeded (.cls a c) = some s.process) ∧
    (s.inited = true → s'.inited = true) := by
  obtain ⟨f1, f2, f3, f4, f5, f6, _⟩ := step_facts hna r hs
  refine ⟨fun l e => (f4 l e).1, fun l e hl => (f5 l e hl).1, fun a e => (f6 a e).1, ?_, f1⟩
  intro e
  obtain ⟨a, b, c⟩ := f2 e
  exact ⟨a, b, c _ (mem_full.mpr (Or.inl rfl)), fun x y hx hy => c _ (mem_full.mpr (Or.inr (mem_classLocks.mpr ⟨x, y, hx, hy, rfl⟩)))⟩

/-- C39. Each thread uses one fixed arena, whose number is below the number of arenas; the same one in a forked child as in the parent. -/
theorem c39_arena (hna : 0 < d.na) (r : LReach d h s) {a b : Nat} (ha : (t, Op.uses a) ∈ h) (hb : (t, Op.uses b) ∈ h) : a < d.na ∧ a = b := by
  have key : ∀ t a, (t, Op.uses a) ∈ h → a < d.na ∧ (1 < d.na → s.arena t = a) := by
    clear ha hb
    induction r with
    | exec => intro t a h; simp at h
    | @step h s s' u o r hs ih =>
      obtain ⟨_, _, _, _, _, f6, f7⟩ := step_facts hna r hs
      intro t a ha
      have : a < d.na ∧ (1 < d.na → s.arena t = a) := by
        rcases List.mem_cons.mp ha with e | e
        · cases e; exact (f6 a rfl).2
        · exact ih t a e
      refine ⟨this.1, fun h1 => ?_⟩
      rw [f7 t (by rw [this.2 h1]; exact this.1)]
      exact this.2 h1
    | @fork h s u n r hp hn hd ih =>
      intro t a ha
      obtain ⟨h1, h2⟩ := List.mem_filter.mp ha
      have e : t = u := of_decide_eq_true h2
      obtain ⟨h3, h4⟩ := ih t a h1
      refine ⟨h3, fun hn => ?_⟩
      show (if t = u then s.arena u else d.na) = a
      rw [if_pos e, ← e]; exact h4 hn
  obtain ⟨h1, h2⟩ := key t a ha
  obtain ⟨h3, h4⟩ := key t b hb
  refine ⟨h1, ?_⟩
  by_cases hn : 1 < d.na
  · rw [← h2 hn, ← h4 hn]
  · omega

/-- Two threads race for the initialisation: thread 2 has found the allocator not initialised and waits for thread 1, which is about to publish it (`c39_once`, `c39_before_use`). -/
example : ∃ h s, LReach ⟨2, 2⟩ h s ∧ (waits s 2 .init 1 && (match s.step 1 0 with | some (_, .publish) => true | _ => false)) = true :=
  ex_run ⟨2, 2⟩ (((1, .inl .alloc) :: go 1 18) ++ ((2, .inl .alloc) :: go 2 5))
    (fun s _ => waits s 2 .init 1 && (match s.step 1 0 with | some (_, .publish) => true | _ => false)) (by decide +kernel)

/-- Both have used their arenas, twice each (`c39_arena`); the allocator has been initialised once. -/
example : ∃ h s, LReach ⟨2, 2⟩ h s ∧ (decide (h.countP (fun e => match e with | (1, .uses 0) => true | _ => false) = 2) &&
    decide (h.countP (fun e => match e with | (2, .uses 1) => true | _ => false) = 2) && decide (h.countP (fun e => e.2.isPublish) = 1)) = true :=
  ex_run ⟨2, 2⟩ (((1, .inl .alloc) :: go 1 18) ++ ((2, .inl .alloc) :: go 2 5) ++ go 1 19 ++ go 2 9 ++ ((2, .inl .alloc) :: go 2 8))
    (fun _ h => decide (h.countP (fun e => match e with | (1, .uses 0) => true | _ => false) = 2) &&
    decide (h.countP (fun e => match e with | (2, .uses 1) => true | _ => false) = 2) && decide (h.countP (fun e => e.2.isPublish) = 1)) (by decide +kernel)

/-! ### C38 -/

/-- C38. When `fork` copies the process, the calling thread holds all locks of the allocator, so that no other thread is in the middle of an operation on its data. -/
theorem c38_at_fork (hna : 0 < d.na) (r : LReach d h s) (hp : s.pc t = .fork (fullUnlock d .done) (postForkChild d .done)) :
    s.owner .region = .held t ∧ (∀ a c, a < d.na → c < d.nc → s.owner (.cls a c) = .held t) ∧
    ∀ u, u ≠ t → ∀ l, s.owner l = .held u → l = .init := by
  obtain ⟨st, j⟩ := r.inv hna
  have w := j.wf t
  rw [hp] at w
  obtain ⟨w1, _⟩ := w.2.2 rfl
  have key : ∀ l ∈ d.full, s.owner l = .held t := fun l hl => (j.own t l).mp ((w1 l).mpr hl)
  refine ⟨key _ (mem_full.mpr (Or.inl rfl)), fun a c ha hc => key _ (mem_full.mpr (Or.inr (mem_classLocks.mpr ⟨a, c, ha, hc, rfl⟩))), ?_⟩
  intro u hu l hl
  rcases j.valid u l ((j.own u l).mpr hl) with e | e
  · exact e
  · rw [key l e] at hl; cases hl; exact absurd rfl hu

/-- C38. When `fork` returns in the child, all locks of the allocator are free and all random states have been seeded by the child itself. -/
theorem c38_child_partial (hna : 0 < d.na) (r : LReach d h s) (hs : s.solo = some t) (hp : s.pc t = .done) :
    s.inited = true ∧ (s.owner .region = .free ∧ s.seeded .region = some s.process) ∧
    ∀ a c, a < d.na → c < d.nc → s.owner (.cls a c) = .free ∧ s.seeded (.cls a c) = some s.process := by
  obtain ⟨st, j⟩ := r.inv hna
  obtain ⟨hdt, hu⟩ := j.alone t hs
  have hi : s.inited = true := by
    clear j hdt hu
    have : s.solo ≠ none := by rw [hs]; simp
    clear hs hp
    induction r with
    | exec => exact absurd rfl this
    | @step h s s' u o r hst ih =>
      have f := (step_facts hna r hst).1
      refine f (ih ?_)
      cases hst with
      | run hst =>
        intro e
        apply this
        unfold LSys.step at hst
        by_cases hd : s.dead = true
        · rw [if_pos hd] at hst; cases hst
        rw [if_neg hd] at hst
        cases hc : s.pc u <;> rw [hc] at hst <;> simp only at hst
        case done => cases hst
        case bad => cases hst
        case lock x k =>
          by_cases hf : s.owner x = .free
          · rw [if_pos hf] at hst; cases hst; exact e
          · rw [if_neg hf] at hst; cases hst
        all_goals cases hst; exact e
      | start hst =>
        rename_i c
        exfalso
        apply this
        unfold LSys.start at hst
        cases hc : s.pc u <;> rw [hc] at hst <;> simp only at hst <;> try cases hst
        by_cases hd : (s.dead || !s.forked) = true
        · rw [if_pos hd] at hst; cases hst
        rw [if_neg hd] at hst
        by_cases he : s.dis u = c.isEnable
        · rw [if_pos he] at hst; cases hst; rfl
        · rw [if_neg he] at hst; cases hst
    | @fork h s u n r hp hn hd ih =>
      obtain ⟨st, j⟩ := r.inv hna
      have w := j.wf u
      rw [hp] at w
      exact j.yes u (w.2.2 rfl).2.1
  have allDone : ∀ u, s.pc u = .done ∧ s.dis u = false := by
    intro u
    by_cases e : u = t
    · subst e; exact ⟨hp, hdt⟩
    · exact hu u e
  have key : ∀ l ∈ d.full, s.owner l = .free ∧ s.seeded l = some s.process := by
    intro l hl
    constructor
    · cases e : s.owner l with
      | free => rfl
      | lost => exact absurd ((j.lost l e).1 ▸ hl) init_not_full
      | held u =>
        have w := j.wf u
        rw [(allDone u).1] at w
        have := ((w.1 l).mp ((j.own u l).mpr e)).1
        rw [j.dis u, (allDone u).2] at this; cases this
    · refine (j.unseeded hi l hl).resolve_right ?_
      rintro ⟨u, S, h1, h2⟩
      have w := j.wf u
      rw [(allDone u).1] at w
      exact h2 (w.2.2.2.2 S h1 l hl)
  exact ⟨hi, key _ (mem_full.mpr (Or.inl rfl)), fun a c ha hc => key _ (mem_full.mpr (Or.inr (mem_classLocks.mpr ⟨a, c, ha, hc, rfl⟩)))⟩

/-- C38. A process never draws from a random state that was seeded in another process. -/
theorem c38_own_random (hna : 0 < d.na) (r : LReach d h s) {l : Lock} (hs : LStep d s t (.touch l) s') : s.seeded l = some s.process :=
  ((step_facts hna r hs).2.2.2.1 l rfl).2.2

/-- C38. No thread ever waits for a lock that was held, when the process was created by `fork`, by a thread that does not exist any more. (Only `init_lock` can be left in such a state.) -/
theorem c38_no_lost (hna : 0 < d.na) (r : LReach d h s) {l : Lock} (hl : s.owner l = .lost) : l = .init ∧ ∀ t k, s.pc t ≠ .lock l k := by
  obtain ⟨st, j⟩ := r.inv hna
  obtain ⟨e, h1⟩ := j.lost l hl
  refine ⟨e, fun t k hc => ?_⟩
  subst e
  have w := j.wf t
  rw [hc] at w
  rcases w.1 with ⟨_, w1⟩ | ⟨w1, _⟩
  · rw [h1 t] at w1; cases w1
  · exact absurd w1 init_not_full

/-- The state in which thread 2 calls the system's `fork` with the handlers registered. -/
theorem ex_forks : ∃ h s, LReach ⟨2, 2⟩ h s ∧ s.pc 2 = .fork (fullUnlock ⟨2, 2⟩ .done) (postForkChild ⟨2, 2⟩ .done) ∧ s.process = 1 ∧ s.dead = false := by
  cases hr : run ⟨2, 2⟩ (exFirst ++ ((2, .inl .fork) :: go 2 6)) (LSys.fresh ⟨2, 2⟩ 1) [] with
  | none => exact absurd (congrArg Option.isSome hr) (by decide +kernel)
  | some x =>
    obtain ⟨s, h⟩ := x
    refine ⟨h, s, run_reach _ _ _ _ _ _ (.exec 1) hr, ?_, ?_, ?_⟩
    · have : (run ⟨2, 2⟩ (exFirst ++ ((2, .inl .fork) :: go 2 6)) (LSys.fresh ⟨2, 2⟩ 1) []).map (fun x => x.1.pc 2) =
          some (.fork (fullUnlock ⟨2, 2⟩ .done) (postForkChild ⟨2, 2⟩ .done)) := rfl
      rw [hr] at this; exact Option.some.inj this
    · have : (run ⟨2, 2⟩ (exFirst ++ ((2, .inl .fork) :: go 2 6)) (LSys.fresh ⟨2, 2⟩ 1) []).map (fun x => x.1.process) = some 1 := rfl
      rw [hr] at this; exact Option.some.inj this
    · have : (run ⟨2, 2⟩ (exFirst ++ ((2, .inl .fork) :: go 2 6)) (LSys.fresh ⟨2, 2⟩ 1) []).map (fun x => x.1.dead) = some false := rfl
      rw [hr] at this; exact Option.some.inj this

/-- The hypotheses of `c38_at_fork` can hold. -/
example : ∃ h s, LReach ⟨2, 2⟩ h s ∧ s.pc 2 = .fork (fullUnlock ⟨2, 2⟩ .done) (postForkChild ⟨2, 2⟩ .done) := by
  obtain ⟨h, s, r, e, _⟩ := ex_forks
  exact ⟨h, s, r, e⟩

/-- Every process that `fork` creates reaches the situation of `c38_child_partial`, if nothing stops it. -/
theorem c38_reaches (hna : 0 < d.na) (r : LReach d h s) (hp : s.pc t = .fork (fullUnlock d .done) (postForkChild d .done)) (hd : s.dead = false) {n : Nat} (hn : n ≠ s.process) :
    ∃ p s', LReach d p s' ∧ s'.solo = some t ∧ s'.pc t = .done ∧ s'.dead = false ∧ s'.process = n := by
  have key : ∀ (ls : List Lock) h (s : LSys), LReach d h s → s.solo = some t → s.dead = false → s.process = n →
      s.pc t = forLocks (fun l k => .newLock l (.seed l k)) ls .done → ∃ p s', LReach d p s' ∧ s'.solo = some t ∧ s'.pc t = .done ∧ s'.dead = false ∧ s'.process = n := by
    intro ls
    induction ls with
    | nil => intro h s r h1 h2 h3 h4; exact ⟨h, s, r, h1, h4, h2, h3⟩
    | cons l ls ih =>
      intro h s r h1 h2 h3 h4
      have e1 : s.step t 0 = some ({ s with owner := upd s.owner l .free, pc := upd s.pc t (.seed l (forLocks (fun l k => .newLock l (.seed l k)) ls .done)) }, .other) := by
        unfold LSys.step; rw [if_neg (by rw [h2]; simp), h4]; rfl
      have r1 := r.step (.run e1)
      have e2 : LSys.step { s with owner := upd s.owner l .free, pc := upd s.pc t (.seed l (forLocks (fun l k => .newLock l (.seed l k)) ls .done)) } t 0 =
          some ({ s with owner := upd s.owner l .free, seeded := upd s.seeded l (some s.process), pc := upd (upd s.pc t (.seed l (forLocks (fun l k => .newLock l (.seed l k)) ls .done))) t (forLocks (fun l k => .newLock l (.seed l k)) ls .done) }, .other) := by
        unfold LSys.step
        simp only [h2, upd_same]
        rfl
      exact ih _ _ (r1.step (.run e2)) h1 h2 h3 (upd_same _ _ _)
  refine key (.region :: d.classLocks) _ _ (.fork n r hp hn hd) rfl hd rfl ?_
  show (if t = t then postForkChild d .done else .done) = _
  rw [if_pos rfl]; rfl

/-- The hypotheses of `c38_child_partial` can hold. -/
example : ∃ h s, LReach ⟨2, 2⟩ h s ∧ s.solo = some 2 ∧ s.pc 2 = .done ∧ s.process = 7 := by
  obtain ⟨h, s, r, e, e1, e2⟩ := ex_forks
  obtain ⟨p, s', r', h1, h2, _, h3⟩ := c38_reaches (by decide) r e e2 (n := 7) (by rw [e1]; decide)
  exact ⟨p, s', r', h1, h2, h3⟩

theorem step_other {n : Nat} {o : Op} (h : s.step t n = some (s', o)) {u : Nat} (hu : u ≠ t) : s'.pc u = s.pc u := by
  unfold LSys.step at h
  by_cases hd : s.dead = true
  · rw [if_pos hd] at h; cases h
  rw [if_neg hd] at h
  cases hc : s.pc t <;> rw [hc] at h <;> simp only at h
  case done => cases h
  case bad => cases h
  case fatal => cases h; rfl
  case lock x k =>
    by_cases hf : s.owner x = .free
    · rw [if_pos hf] at h; cases h; exact upd_ne _ _ hu
    · rw [if_neg hf] at h; cases h
  all_goals cases h; exact upd_ne _ _ hu

theorem start_other {c : LCall} {o : Op} (hs : s.start d t c = some (s', o)) {u : Nat} (hu : u ≠ t) : s'.pc u = s.pc u := by
  unfold LSys.start at hs
  cases hc : s.pc t <;> rw [hc] at hs <;> simp only at hs <;> try cases hs
  by_cases hd : (s.dead || !s.forked) = true
  · rw [if_pos hd] at hs; cases hs
  rw [if_neg hd] at hs
  by_cases he : s.dis t = c.isEnable
  · rw [if_pos he] at hs; cases hs; exact upd_ne _ _ hu
  · rw [if_neg he] at hs; cases hs

theorem run_path (d : Dim) (l : List (Nat × (LCall ⊕ Nat))) (t : Nat) (hl : ∀ e ∈ l, e.1 = t) : ∀ s h s' h', run d l s h = some (s', h') →
    ∃ p, Path d s p s' ∧ (∀ e ∈ p, e.1 = t) ∧ ∀ u, u ≠ t → s'.pc u = s.pc u := by
  induction l with
  | nil => intro s h s' h' e; cases e; exact ⟨[], .nil _, by simp, fun _ _ => rfl⟩
  | cons x l ih =>
    have ih := ih fun e he => hl e (List.mem_cons_of_mem _ he)
    have hx : x.1 = t := hl x List.mem_cons_self
    obtain ⟨t', c | n⟩ := x
    · subst hx
      intro s h s' h' e
      unfold run at e
      cases hs : s.start d t' c with
      | none => rw [hs] at e; cases e
      | some y =>
        obtain ⟨s1, o⟩ := y
        rw [hs] at e
        obtain ⟨p, h1, h2, h3⟩ := ih _ _ _ _ e
        refine ⟨_, .cons (.start hs) h1, ?_, fun u hu => (h3 u hu).trans (start_other hs hu)⟩
        intro e he
        rcases List.mem_cons.mp he with rfl | he
        · rfl
        · exact h2 e he
    · subst hx
      intro s h s' h' e
      unfold run at e
      cases hs : s.step t' n with
      | none => rw [hs] at e; cases e
      | some y =>
        obtain ⟨s1, o⟩ := y
        rw [hs] at e
        obtain ⟨p, h1, h2, h3⟩ := ih _ _ _ _ e
        refine ⟨_, .cons (.run hs) h1, ?_, fun u hu => (h3 u hu).trans (step_other hs hu)⟩
        intro e he
        rcases List.mem_cons.mp he with rfl | he
        · rfl
        · exact h2 e he

/-- One arena with two classes: thread 1 has initialised the allocator and not yet registered the handlers, thread 2 holds the lock of a class, thread 3 calls `fork`. -/
def exWindow : List (Nat × (LCall ⊕ Nat)) := ((1, .inl .alloc) :: go 1 14) ++ ((2, .inl .alloc) :: go 2 5) ++ ((3, .inl .fork) :: go 3 1)

/-- Thread 3 calls `malloc` in the child. -/
def exWindowChild : List (Nat × (LCall ⊕ Nat)) := (3, .inl .alloc) :: go 3 4

/-- C38, what is missing: the handlers are registered after the allocator has been initialised and is in use by other threads (h_malloc.c:1285-1296). If a thread calls `fork` in between, the handlers
are not run, and the child can be left with a lock that is never released: here thread 3 forks while thread 2 holds the lock of its class. `malloc` in the child then waits for this lock,
which no thread of the child holds, and no thread of the child can go on. -/
theorem c38_window : ∃ h s, LReach ⟨1, 2⟩ h s ∧ s.pc 3 = .fork .done .done ∧ s.inited = true ∧ s.owner (.cls 0 1) = .held 2 ∧
    ∃ p c, Path ⟨1, 2⟩ (s.forkChild ⟨1, 2⟩ 3 7 .done) p c ∧ c.dead = false ∧ (∃ k, c.pc 3 = .lock (.cls 0 1) k) ∧ c.owner (.cls 0 1) = .lost ∧ ∀ u n, c.step u n = none := by
  have e0 : ((run ⟨1, 2⟩ exWindow (LSys.fresh ⟨1, 2⟩ 1) []).bind fun x => run ⟨1, 2⟩ exWindowChild (x.1.forkChild ⟨1, 2⟩ 3 7 .done) []).isSome = true := by decide +kernel
  cases hr : run ⟨1, 2⟩ exWindow (LSys.fresh ⟨1, 2⟩ 1) [] with
  | none => rw [hr] at e0; cases e0
  | some x =>
    obtain ⟨s, h⟩ := x
    rw [hr] at e0
    simp only [Option.bind_some] at e0
    have hs : ∀ {β : Type} (f : LSys → β) (v : β), (run ⟨1, 2⟩ exWindow (LSys.fresh ⟨1, 2⟩ 1) []).map (fun x => f x.1) = some v → f s = v := by
      intro β f v hv; rw [hr] at hv; exact Option.some.inj hv
    refine ⟨h, s, run_reach _ _ _ _ _ _ (.exec 1) hr, hs (fun s => s.pc 3) _ rfl, hs (fun s => s.inited) _ rfl, hs (fun s => s.owner (.cls 0 1)) _ rfl, ?_⟩
    cases hc : run ⟨1, 2⟩ exWindowChild (s.forkChild ⟨1, 2⟩ 3 7 .done) [] with
    | none => rw [hc] at e0; cases e0
    | some y =>
      obtain ⟨c, h'⟩ := y
      have hcs : ∀ {β : Type} (f : LSys → β) (v : β),
          ((run ⟨1, 2⟩ exWindow (LSys.fresh ⟨1, 2⟩ 1) []).bind fun x => (run ⟨1, 2⟩ exWindowChild (x.1.forkChild ⟨1, 2⟩ 3 7 .done) []).map fun x => f x.1) = some v → f c = v := by
        intro β f v hv; rw [hr] at hv; simp only [Option.bind_some] at hv; rw [hc] at hv; exact Option.some.inj hv
      obtain ⟨p, h1, h2, h3⟩ := run_path ⟨1, 2⟩ exWindowChild 3 (by decide) _ _ _ _ hc
      have hp : c.pc 3 = crit (.cls 0 1) .done := hcs (fun s => s.pc 3) _ rfl
      have ho : c.owner (.cls 0 1) = .lost := hcs (fun s => s.owner (.cls 0 1)) _ rfl
      have hd : c.dead = false := hcs (fun s => s.dead) _ rfl
      refine ⟨p, c, h1, hd, ⟨_, hp⟩, ho, fun u n => ?_⟩
      unfold LSys.step
      rw [if_neg (by rw [hd]; simp)]
      by_cases e : u = 3
      · subst e
        rw [hp]
        unfold crit
        simp only
        rw [if_neg (by rw [ho]; simp)]
      · rw [h3 u e]
        have : (s.forkChild ⟨1, 2⟩ 3 7 .done).pc u = .done := if_neg e
        rw [this]

end HM.L
