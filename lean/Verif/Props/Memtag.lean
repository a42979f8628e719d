import Verif.Memtag
import Mathlib.Tactic.Cases
/-
C66: switching memory tagging off while the process runs.
-/
namespace HM.M

variable {q : Bool} {h : List (Nat × MEv)} {s : MSt}

/-- What holds for a thread at `p`. -/
def Pt.Ok (s : MSt) : Pt → Prop
  | .disInit => s.disabled = false
  | .disProtectRw => s.inited = true ∧ s.disabled = false
  | .disSet => s.inited = true ∧ s.writable = true ∧ s.disabled = false
  | .disProtectRo => s.inited = true ∧ s.disabled = true
  | .disSetEarly => s.inited = false ∧ s.disabled = false
  | .disUnlock => s.disabled = true
  | .initStore | .initRead => s.inited = false
  | .initMap b => s.inited = false ∧ b = !s.disabled
  | .initStore2 | .initPublish => s.inited = false ∧ s.mte = !s.disabled
  | .initProtectRo | .initUnlock | .use => s.inited = true
  | _ => True

/-- What holds at all times, however threads fork. -/
structure Inv (s : MSt) : Prop where
  excl : ∀ t, (s.pt t).locked = true → s.lock = some t
  early : s.inited = false → s.writable = true
  ok : ∀ t, (s.pt t).Ok s
  mapped : s.inited = true → s.disabled = false → s.mte = true

theorem Inv.start : Inv .start := by
  constructor <;> simp [MSt.start, Pt.locked, Pt.Ok]

/-- Two threads cannot both be between locking and unlocking. -/
theorem Inv.alone (v : Inv s) {t u : Nat} (ht : (s.pt t).locked = true) (hu : (s.pt u).locked = true) : t = u := by
  have h1 := v.excl t ht
  have h2 := v.excl u hu
  rw [h1] at h2
  exact Option.some.inj h2

/-- What a step of a thread changes. -/
theorem step_cases {s s' : MSt} {t : Nat} {f a : Bool} {e : MEv} (v : Inv s) (hs : s.step t f a = .ok s' e) :
    (∀ u, u ≠ t → s'.pt u = s.pt u) ∧ (s'.pt t).Ok s' ∧
    ((s.pt t).locked = false → s'.disabled = s.disabled ∧ s'.inited = s.inited ∧ s'.writable = s.writable ∧ s'.mte = s.mte) ∧
    (s'.lock = s.lock ∨ s.lock = none ∨ (s.pt t).locked = true) ∧
    ((s'.pt t).locked = true → s'.lock = some t) ∧
    (s.inited = true → s'.inited = true) ∧ (s'.inited = false → s'.writable = true) ∧
    (s'.inited = true → s'.disabled = false → s'.mte = true) ∧
    (s.disabled = true → s'.disabled = true) ∧
    (e = .disRet → s'.disabled = true) ∧ (e = .set → s.disabled = false ∧ s'.disabled = true) ∧
    (e ≠ .set → s'.disabled = s.disabled) ∧
    (∀ b, e = .sees b → s.inited = true ∧ b = !s.disabled) := by
  have hm := v.excl t
  have hp := v.ok t
  have he := v.early
  have hM := v.mapped
  unfold MSt.step MSt.store at hs
  cases hpt : s.pt t <;> simp only [hpt] at hs hm hp <;> (repeat' split at hs) <;>
    first
      | (cases hs; done)
      | (cases hs; refine ⟨?_, ?_⟩
         · intro u hu; simp [MSt.goto, hu]
         · simp_all [MSt.goto, Pt.locked, Pt.Ok])

theorem Inv.step {s s' : MSt} {t : Nat} {f a : Bool} {e : MEv} (v : Inv s) (hs : s.step t f a = .ok s' e) : Inv s' := by
  obtain ⟨hpt, hok, hun, hlk, hmy, hin, hea, hma, -⟩ := step_cases v hs
  refine ⟨?_, hea, ?_, hma⟩
  · intro u hu
    by_cases e1 : u = t
    · subst e1; exact hmy hu
    · rw [hpt u e1] at hu
      have h1 := v.excl u hu
      rcases hlk with h2 | h2 | h2
      · rw [h2]; exact h1
      · rw [h1] at h2; cases h2
      · exact absurd (v.alone hu h2) e1
  · intro u
    by_cases e1 : u = t
    · subst e1; exact hok
    · rw [hpt u e1]
      have h1 := v.ok u
      cases hl : (s.pt u).locked with
      | true =>
        have h2 : (s.pt t).locked = false := by
          cases h3 : (s.pt t).locked with
          | false => rfl
          | true => exact absurd (v.alone hl h3) e1
        obtain ⟨e2, e3, e4, e5⟩ := hun h2
        revert h1
        cases s.pt u <;> simp only [Pt.Ok, e2, e3, e4, e5] <;> exact id
      | false =>
        revert h1 hl
        cases s.pt u <;> simp [Pt.Ok, Pt.locked]
        exact hin

theorem Inv.fork {s : MSt} {t : Nat} (v : Inv s) (ht : s.pt t = .app) : Inv (s.fork t) := by
  have hpt : ∀ u, (s.fork t).pt u = .app := by
    intro u
    unfold MSt.fork
    simp only
    split
    · exact ht
    · rfl
  refine ⟨?_, v.early, ?_, v.mapped⟩
  · intro u hu; rw [hpt u] at hu; cases hu
  · intro u; rw [hpt u]; trivial

theorem MSteps.inv {s0 : MSt} (v : Inv s0) (r : MSteps q s0 h s) : Inv s := by
  induction r with
  | refl => exact v
  | step r t f a hs ih => exact ih.step hs
  | fork r t ht hq ih => exact ih.fork ht

theorem MReach.inv (r : MReach q h s) : Inv s := MSteps.inv Inv.start r

/-- What holds in addition if no thread forks while another one has locked `init_lock`. -/
structure QInv (s : MSt) : Prop where
  held : ∀ t, s.lock = some t → (s.pt t).locked = true
  sealed : s.inited = true → s.writable = true → ∃ t, s.pt t = .disSet ∨ s.pt t = .disProtectRo ∨ s.pt t = .initProtectRo

theorem QInv.step {s s' : MSt} {t : Nat} {f a : Bool} {e : MEv} (v : Inv s) (w : QInv s) (hs : s.step t f a = .ok s' e) : QInv s' := by
  have hm := v.excl t
  have hp := v.ok t
  have hpt := (step_cases v hs).1
  have hal : ∀ u, (s.pt u = .disSet ∨ s.pt u = .disProtectRo ∨ s.pt u = .initProtectRo) → (s.pt t).locked = true → u = t := by
    intro u hu hl
    refine v.alone ?_ hl
    rcases hu with e | e | e <;> rw [e] <;> rfl
  have key : ∀ u, (s.pt u = .disSet ∨ s.pt u = .disProtectRo ∨ s.pt u = .initProtectRo) → u ≠ t →
      ∃ t, s'.pt t = .disSet ∨ s'.pt t = .disProtectRo ∨ s'.pt t = .initProtectRo := by
    intro u hu hne
    exact ⟨u, by rw [hpt u hne]; exact hu⟩
  refine ⟨?_, ?_⟩
  · intro u hu
    by_cases e1 : u = t
    · subst e1
      have hh := w.held u
      unfold MSt.step MSt.store at hs
      cases hx : s.pt u <;> simp only [hx] at hs hm hh <;> (repeat' split at hs) <;>
        first
          | (cases hs; done)
          | (cases hs; simp_all [MSt.goto, Pt.locked])
    · rw [hpt u e1]
      apply w.held u
      unfold MSt.step MSt.store at hs
      cases hx : s.pt t <;> simp only [hx] at hs hm <;> (repeat' split at hs) <;>
        first
          | (cases hs; done)
          | (cases hs; simp_all [MSt.goto, Pt.locked])
  · intro hi hw
    cases hl : (s.pt t).locked with
    | false =>
      obtain ⟨-, h2, h3, -⟩ := (step_cases v hs).2.2.1 hl
      rw [h2] at hi
      rw [h3] at hw
      obtain ⟨u, hu⟩ := w.sealed hi hw
      refine key u hu ?_
      intro e1
      subst e1
      rcases hu with e | e | e <;> rw [e] at hl <;> cases hl
    | true =>
      refine ⟨t, ?_⟩
      have hse : s.inited = true → s.writable = true → s.pt t = .disSet ∨ s.pt t = .disProtectRo ∨ s.pt t = .initProtectRo := by
        intro h1 h2
        obtain ⟨u, hu⟩ := w.sealed h1 h2
        have := hal u hu hl
        subst this
        exact hu
      clear hal key hpt w v
      unfold MSt.step MSt.store at hs
      cases hx : s.pt t <;> simp only [hx] at hs hm hp hse <;> (repeat' split at hs) <;>
        first
          | (cases hs; done)
          | (cases hs; simp_all [MSt.goto, Pt.locked, Pt.Ok])

theorem MSteps.qinv {s0 : MSt} (v : Inv s0) (w : QInv s0) (r : MSteps true s0 h s) : QInv s := by
  induction r with
  | refl => exact w
  | step r t f a hs ih => exact ih.step (MSteps.inv v r) hs
  | @fork h s r t ht hq ih =>
    have hu := hq rfl
    refine ⟨?_, ?_⟩
    · intro u hl
      have := ih.held u hl
      rw [hu u] at this
      cases this
    · intro hi hw
      obtain ⟨u, h1⟩ := ih.sealed hi hw
      have := hu u
      rcases h1 with e | e | e <;> rw [e] at this <;> cases this

theorem MReach.qinv (r : MReach true h s) : QInv s := by
  refine MSteps.qinv Inv.start ⟨?_, ?_⟩ r
  · intro t ht; cases ht
  · intro hi; cases hi

/-! ### The claims -/

/-- Once a call of `h_malloc_disable_memory_tagging` has returned, no part of the allocator, in any thread, finds tagging enabled any more. -/
theorem c66_for_good (r : MReach q h s) {h1 h2 : List (Nat × MEv)} {t u : Nat} (hh : h = h2 ++ (t, .disRet) :: h1) : (u, .sees true) ∉ h2 := by
  have key : ∀ {h : List (Nat × MEv)} {s : MSt}, MReach q h s → ∀ h2, h = h2 ++ (t, MEv.disRet) :: h1 → s.disabled = true ∧ (u, MEv.sees true) ∉ h2 := by
    intro h s r
    induction r with
    | refl => intro h2 hh; cases h2 <;> cases hh
    | @step h s s' e r v f a hs ih =>
      intro h2 hh
      have hc := step_cases (MReach.inv r) hs
      cases h2 with
      | nil =>
        cases hh
        exact ⟨hc.2.2.2.2.2.2.2.2.2.1 rfl, by simp⟩
      | cons x h2 =>
        simp only [List.cons_append, List.cons.injEq] at hh
        obtain ⟨h3, h4⟩ := hh
        subst h3
        obtain ⟨h5, h6⟩ := ih h2 h4
        refine ⟨hc.2.2.2.2.2.2.2.2.1 h5, ?_⟩
        rintro (_ | ⟨_, h7⟩)
        · have := (hc.2.2.2.2.2.2.2.2.2.2.2.2 true rfl).2
          rw [h5] at this
          cases this
        · exact h6 h7
    | @fork h s r v ht hq ih =>
      intro h2 hh
      cases h2 with
      | nil => cases hh
      | cons x h2 =>
        simp only [List.cons_append, List.cons.injEq] at hh
        obtain ⟨h3, h4⟩ := hh
        subst h3
        obtain ⟨h5, h6⟩ := ih h2 h4
        refine ⟨h5, ?_⟩
        rintro (_ | ⟨_, h7⟩)
        exact h6 h7
  exact (key r h2 hh).2

/-- The flag is set at most once, and before it is set tagging is found enabled. -/
theorem c66_once (r : MReach q h s) : h.countP (fun x => x.2 == .set) = (if s.disabled then 1 else 0) := by
  induction r with
  | refl => rfl
  | @step h s s' e r v f a hs ih =>
    have hc := step_cases (MReach.inv r) hs
    rw [List.countP_cons, ih]
    by_cases he : e = .set
    · obtain ⟨h1, h2⟩ := hc.2.2.2.2.2.2.2.2.2.2.1 he
      simp [h1, h2, he]
    · have h1 := hc.2.2.2.2.2.2.2.2.2.2.2.1 he
      simp [h1, he]
  | fork r v ht hq ih =>
    rw [List.countP_cons, ih]
    rfl

/-- Tagging is found enabled only if the slab region is mapped with tag checking, and only after the initialisation. -/
theorem c66_mapped (r : MReach q h s) {t : Nat} {f a : Bool} {s' : MSt} (hs : s.step t f a = .ok s' (.sees true)) : s.inited = true ∧ s.mte = true := by
  obtain ⟨h1, h2⟩ := (step_cases (MReach.inv r) hs).2.2.2.2.2.2.2.2.2.2.2.2 true rfl
  refine ⟨h1, (MReach.inv r).mapped h1 ?_⟩
  cases h3 : s.disabled with
  | false => rfl
  | true => rw [h3] at h2; cases h2

/-- No thread stores to the page `ro` while it is read-only; the process is ended only if a system call fails. -/
theorem c66_no_fault (r : MReach q h s) (t : Nat) (f a : Bool) : s.step t f a ≠ .segv ∧ (f = false → s.step t f a ≠ .fatal) := by
  have v := MReach.inv r
  have hp := v.ok t
  have he := v.early
  unfold MSt.step MSt.store
  cases hx : s.pt t <;> simp only [hx] at hp ⊢ <;> simp_all [Pt.Ok] <;> split <;> simp

/-- Without forks at the wrong moment: after the initialisation, `ro` is read-only whenever no thread is in the middle of `h_malloc_disable_memory_tagging` or of
the initialisation. -/
theorem c66_readonly_partial (r : MReach true h s) (hi : s.inited = true) (ht : ∀ t, (s.pt t).locked = false) : s.writable = false := by
  cases hw : s.writable with
  | false => rfl
  | true =>
    obtain ⟨t, h1⟩ := (MReach.qinv r).sealed hi hw
    have := ht t
    rcases h1 with e | e | e <;> rw [e] at this <;> cases this

/-- Without forks at the wrong moment, threads do not block each other: if a thread waits, some thread can go on. -/
theorem c66_no_deadlock_partial (r : MReach true h s) {t : Nat} {a : Bool} (hb : s.step t false a = .blocked) : ∃ u, u ≠ t ∧ ∃ s' e, s.step u false a = .ok s' e := by
  have v := MReach.inv r
  have w := MReach.qinv r
  have hl : s.lock ≠ none ∧ (s.pt t).locked = false := by
    unfold MSt.step MSt.store at hb
    cases hx : s.pt t <;> simp only [hx] at hb <;> (repeat' split at hb) <;>
      first
        | (cases hb; done)
        | exact ⟨by assumption, rfl⟩
  obtain ⟨h1, h2⟩ := hl
  obtain ⟨u, hu⟩ := Option.ne_none_iff_exists'.mp h1
  have h3 := w.held u hu
  refine ⟨u, ?_, ?_⟩
  · intro e1; subst e1; rw [h2] at h3; cases h3
  · have h4 := c66_no_fault r u false a
    have h5 : s.step u false a ≠ .blocked := by
      intro h5
      unfold MSt.step MSt.store at h5
      cases hx : s.pt u <;> simp only [hx] at h5 h3 <;> (repeat' split at h5) <;>
        first
          | (cases h5; done)
          | (cases h3; done)
    cases h6 : s.step u false a with
    | ok s' e => exact ⟨s', e, rfl⟩
    | segv => exact absurd h6 h4.1
    | fatal => exact absurd h6 (h4.2 rfl)
    | blocked => exact absurd h6 h5

/-! ### Examples, and the fork at the wrong moment -/

/-- Run steps `(thread, fails, again)`, the first of the list first. -/
def runM (h : List (Nat × MEv)) (s : MSt) : List (Nat × Bool × Bool) → Option (List (Nat × MEv) × MSt)
  | [] => some (h, s)
  | (t, f, a) :: l =>
    match s.step t f a with
    | .ok s' e => runM ((t, e) :: h) s' l
    | _ => none

theorem runM_steps {s0 : MSt} {l : List (Nat × Bool × Bool)} {h h' : List (Nat × MEv)} {s s' : MSt} (r : MSteps q s0 h s) (hr : runM h s l = some (h', s')) :
    MSteps q s0 h' s' := by
  induction l generalizing h s with
  | nil => cases hr; exact r
  | cons x l ih =>
    obtain ⟨t, f, a⟩ := x
    unfold runM at hr
    cases hs : s.step t f a with
    | ok s1 e => rw [hs] at hr; exact ih (.step r t f a hs) hr
    | segv => rw [hs] at hr; cases hr
    | fatal => rw [hs] at hr; cases hr
    | blocked => rw [hs] at hr; cases hr

/-- Thread 0 allocates, which initialises the allocator, finds tagging enabled, and returns. -/
def firstUse : List (Nat × Bool × Bool) := (0, false, false) :: List.replicate 10 (0, false, false) ++ [(0, false, true), (0, false, false)]

/-- Thread 1 begins to switch tagging off, and is about to set the flag. -/
def halfWay : List (Nat × Bool × Bool) := (1, false, true) :: List.replicate 4 (1, false, false)

/-- The threads that do not run stay in the application. -/
theorem runM_other {l : List (Nat × Bool × Bool)} {h h' : List (Nat × MEv)} {s s' : MSt} (v : Inv s) (hr : runM h s l = some (h', s')) {u : Nat}
    (hu : ∀ x ∈ l, x.1 ≠ u) : s'.pt u = s.pt u := by
  induction l generalizing h s with
  | nil => cases hr; rfl
  | cons x l ih =>
    obtain ⟨t, f, a⟩ := x
    unfold runM at hr
    cases hs : s.step t f a with
    | ok s1 e =>
      rw [hs] at hr
      rw [ih (v.step hs) hr (fun x hx => hu x (List.mem_cons_of_mem _ hx))]
      exact (step_cases v hs).1 u (Ne.symm (hu _ List.mem_cons_self))
    | segv => rw [hs] at hr; cases hr
    | fatal => rw [hs] at hr; cases hr
    | blocked => rw [hs] at hr; cases hr

/-- The outcome of a run that does not stop. -/
def endOf (l : List (Nat × Bool × Bool)) : List (Nat × MEv) × MSt := (runM [] .start l).getD ([], .start)

theorem endOf_eq {l : List (Nat × Bool × Bool)} (hl : (runM [] .start l).isSome = true) : runM [] .start l = some ((endOf l).1, (endOf l).2) := by
  unfold endOf
  cases hr : runM [] .start l with
  | none => rw [hr] at hl; cases hl
  | some x => rfl

/-- With these steps thread 1 finishes switching tagging off. -/
def restOfIt : List (Nat × Bool × Bool) := List.replicate 3 (1, false, false)

/-- Thread 0 frees a block. -/
def secondUse : List (Nat × Bool × Bool) := [(0, false, false), (0, false, false), (0, false, true), (0, false, false)]

theorem two_threads {l : List (Nat × Bool × Bool)} (hl : (runM [] .start l).isSome = true) (h01 : ∀ x ∈ l, x.1 = 0 ∨ x.1 = 1) {p : Pt → Prop} (happ : p .app)
    (h0 : p ((endOf l).2.pt 0)) (h1 : p ((endOf l).2.pt 1)) (t : Nat) : p ((endOf l).2.pt t) := by
  by_cases e0 : t = 0
  · subst e0; exact h0
  by_cases e1 : t = 1
  · subst e1; exact h1
  rw [runM_other Inv.start (endOf_eq hl) (u := t) ?_]
  · exact happ
  · intro x hx
    rcases h01 x hx with e | e <;> rw [e]
    · exact Ne.symm e0
    · exact Ne.symm e1

/-- The hypotheses of the theorems are met: thread 0 finds tagging enabled, thread 1 switches it off, thread 0 no longer finds it enabled. In between, thread 1 has made `ro` writable, and
another thread that wants to switch tagging off has to wait. -/
example : (∃ h s h1 h2, MReach true h s ∧ h = h2 ++ (1, .disRet) :: h1 ∧ (0, .sees true) ∈ h1 ∧ (0, .sees false) ∈ h2 ∧ s.mte = true ∧ s.inited = true ∧
      (∀ t, (s.pt t).locked = false) ∧ s.disabled = true) ∧
    (∃ h s, MReach true h s ∧ s.inited = true ∧ s.writable = true ∧ s.step 2 false true = .blocked) := by
  constructor
  · have hl : (runM [] .start (firstUse ++ halfWay ++ restOfIt ++ secondUse)).isSome = true := rfl
    refine ⟨(endOf (firstUse ++ halfWay ++ restOfIt ++ secondUse)).1, (endOf (firstUse ++ halfWay ++ restOfIt ++ secondUse)).2,
      (endOf (firstUse ++ halfWay ++ restOfIt ++ secondUse)).1.drop 5, (endOf (firstUse ++ halfWay ++ restOfIt ++ secondUse)).1.take 4,
      runM_steps .refl (endOf_eq hl), by decide, by decide, by decide, by decide, by decide, ?_, by decide⟩
    exact two_threads (p := fun x => x.locked = false) hl (by decide) rfl (by decide) (by decide)
  · have hl : (runM [] .start (firstUse ++ halfWay ++ [(2, false, true)])).isSome = true := rfl
    exact ⟨_, _, runM_steps .refl (endOf_eq hl), by decide, by decide, rfl⟩

/-- The claim of the last two theorems is false if a thread forks while another one is in the middle of `h_malloc_disable_memory_tagging`: in the child, the page `ro` is writable from then on, and
every call of this function waits for ever, as nobody will unlock `init_lock`. -/
theorem c66_fork_window : ∃ h s, MReach false h s ∧ (∀ t, s.pt t = .app) ∧ s.inited = true ∧
    ∀ h' s', MSteps false s h' s' → s'.writable = true ∧ ∀ t, (t, MEv.disRet) ∉ h' ∧ ∀ a, s'.pt t = .disLock → s'.step t false a = .blocked := by
  have hl : (runM [] .start (firstUse ++ halfWay)).isSome = true := rfl
  have r : MReach false (endOf (firstUse ++ halfWay)).1 (endOf (firstUse ++ halfWay)).2 := runM_steps .refl (endOf_eq hl)
  have h0 : (endOf (firstUse ++ halfWay)).2.pt 0 = .app := by decide
  have happ : ∀ t, ((endOf (firstUse ++ halfWay)).2.fork 0).pt t = .app := by
    intro u
    unfold MSt.fork
    simp only
    split
    · exact h0
    · rfl
  refine ⟨_, _, .fork r 0 h0 (by intro e; cases e), happ, by decide, ?_⟩
  have key : ∀ h' s', MSteps false ((endOf (firstUse ++ halfWay)).2.fork 0) h' s' →
      (s'.lock = some 1 ∧ s'.writable = true ∧ s'.inited = true ∧ ∀ t, s'.pt t = .app ∨ s'.pt t = .disLock ∨ s'.pt t = .allocInit ∨ s'.pt t = .use) ∧
      ∀ t, (t, MEv.disRet) ∉ h' := by
    intro h' s' r'
    induction r' with
    | refl => exact ⟨⟨by decide, by decide, by decide, fun t => .inl (happ t)⟩, fun t => by simp⟩
    | @step h s s1 e r t f a hs ih =>
      obtain ⟨⟨i1, i2, i3, i4⟩, i5⟩ := ih
      have hother : ∀ q : Pt, (q = .app ∨ q = .disLock ∨ q = .allocInit ∨ q = .use) →
          ∀ u, (s.goto t q).pt u = .app ∨ (s.goto t q).pt u = .disLock ∨ (s.goto t q).pt u = .allocInit ∨ (s.goto t q).pt u = .use := by
        intro q hq u
        unfold MSt.goto
        simp only
        split
        · exact hq
        · exact i4 u
      unfold MSt.step at hs
      rcases i4 t with hx | hx | hx | hx <;> simp only [hx] at hs
      · split at hs <;> cases hs
        · exact ⟨⟨i1, i2, i3, hother _ (by simp)⟩, fun u => by simp [i5 u]⟩
        · exact ⟨⟨i1, i2, i3, hother _ (by simp)⟩, fun u => by simp [i5 u]⟩
      · rw [i1] at hs; simp at hs
      · cases hs
        rw [i3]
        exact ⟨⟨i1, i2, i3, hother _ (by simp)⟩, fun u => by simp [i5 u]⟩
      · split at hs <;> cases hs
        · exact ⟨⟨i1, i2, i3, i4⟩, fun u => by simp [i5 u]⟩
        · exact ⟨⟨i1, i2, i3, hother _ (by simp)⟩, fun u => by simp [i5 u]⟩
    | @fork h s r t ht hq ih =>
      obtain ⟨⟨i1, i2, i3, i4⟩, i5⟩ := ih
      refine ⟨⟨i1, i2, i3, ?_⟩, fun u => by simp [i5 u]⟩
      intro u
      unfold MSt.fork
      simp only
      split
      · exact i4 t
      · exact .inl rfl
  intro h' s' r'
  obtain ⟨⟨i1, i2, i3, i4⟩, i5⟩ := key h' s' r'
  refine ⟨i2, fun t => ⟨i5 t, ?_⟩⟩
  intro a hx
  unfold MSt.step
  rw [hx, i1]
  rfl

end HM.M
