import Verif.Steps
import Verif.WildPath
import Verif.Props.Errno
import Verif.Props.Overlap

/-! # C63: every call finishes, whatever other threads do

The actions of a call are its critical sections (from locking to unlocking), its system calls outside of critical sections,
and the copying and zeroing of memory. That each of them terminates is part of C36 and C54; here their number is bounded. -/

namespace HM

/-- An execution from `s0`, with history `h0`, during which the call that thread `t` is making does not return and performs `n`
actions; all other threads, and the application, do what they like. -/
inductive Spends (ro : Ro) (ar : Nat → Nat) (calm : Bool) (t : Nat) (h0 : List CEv) (s0 : CSys) : Nat → List CEv → CSys → Prop where
  | refl : Spends ro ar calm t h0 s0 0 h0 s0
  /-- Thread `t` performs the next action of its call. -/
  | own {n : Nat} {h : List CEv} {s : CSys} (r : Spends ro ar calm t h0 s0 n h s) {c : Call} {β : Type} {l : Option Sect}
      {f : Choice → St → Tl → Res (St × Tl × β)} {k : β → Prog Ret} (hc : s.run t = some (c, .act (l := l) f k)) {ch : Choice}
      {σ' : St} {tl' : Tl} {b : β} (hf : f ch s.σ (s.tl t) = .ok (σ', tl', b)) :
      Spends ro ar calm t h0 s0 (n + 1) h ⟨σ', upd s.tl t tl', upd s.run t (some (c, k b)), s.start⟩
  /-- A step that `t` does not take part in. -/
  | rest {n : Nat} {h h' : List CEv} {s s' : CSys} (r : Spends ro ar calm t h0 s0 n h s) (st : WStep ro ar calm h s h' s') (e : s'.run t = s.run t) :
      Spends ro ar calm t h0 s0 n h' s'

variable {g : Cfg} {ro : Ro} {ar : Nat → Nat} {calm : Bool} {h : List CEv} {s : CSys}

/-- What remains of a call is short. -/
theorem WReach.short (r : WReach g ro ar calm h s) : ∀ {t : Nat} {c : Call} {P : Prog Ret}, s.run t = some (c, P) → P.Short (c.maxActions ro.g) := by
  have key : ∀ {f : Nat → Option (Call × Prog Ret)} {u t : Nat} {c : Call} {P : Prog Ret} {x : Option (Call × Prog Ret)},
      (f t = some (c, P) → P.Short (c.maxActions ro.g)) → (x = some (c, P) → P.Short (c.maxActions ro.g)) → upd f u x t = some (c, P) → P.Short (c.maxActions ro.g) := by
    intro f u t c P x h1 h2 e
    unfold upd at e
    split at e
    · exact h2 e
    · exact h1 e
  induction r with
  | init => intro t c P e; cases e
  | invoke r t c b hi hok hl ih => exact fun {t' c' P} => key ih fun e => by cases e; exact Prog.Short.call _ _
  | step r t hc he hf ih => exact fun {t' c' P} => key ih fun e => by cases e; exact ((ih hc).2 _).mono (by omega)
  | ret r t hc ih => exact fun {t' c' P} => key ih fun e => by cases e
  | store r x v ih => exact ih
  | errno r t e hi ih => exact ih
  | fork r t hi ih => intro t c P e; cases e
  | other r pg pr data hp ih => exact ih

/-- What remains of a call is short. -/
theorem CReach.short (r : CReach g ro ar calm h s) : ∀ {t : Nat} {c : Call} {P : Prog Ret}, s.run t = some (c, P) → P.Short (c.maxActions ro.g) := by
  have key : ∀ {f : Nat → Option (Call × Prog Ret)} {u t : Nat} {c : Call} {P : Prog Ret} {x : Option (Call × Prog Ret)},
      (f t = some (c, P) → P.Short (c.maxActions ro.g)) → (x = some (c, P) → P.Short (c.maxActions ro.g)) → upd f u x t = some (c, P) → P.Short (c.maxActions ro.g) := by
    intro f u t c P x h1 h2 e
    unfold upd at e
    split at e
    · exact h2 e
    · exact h1 e
  induction r with
  | init => intro t c P e; cases e
  | invoke r t c b hi hok hl ih => exact fun {t' c' P} => key ih fun e => by cases e; exact Prog.Short.call _ _
  | step r t hc he hf ih => exact fun {t' c' P} => key ih fun e => by cases e; exact ((ih hc).2 _).mono (by omega)
  | ret r t hc ih => exact fun {t' c' P} => key ih fun e => by cases e
  | store r x v hp hu h1 h2 ih => exact ih
  | errno r t e hi ih => exact ih
  | fork r t hi ih => intro t c P e; cases e
  | other r pg pr data hp ih => exact ih

/-- C63. In the middle of a call, or at its beginning, a thread performs at most `maxActions` further actions before the call
returns: 21, or 3 more than there are size classes in all arenas for `malloc_trim` and `mallinfo`. No other thread can make it
do more, whatever calls they make, and neither can stores of the application to wherever it likes or any answer of the kernel. -/
theorem c63_bounded (hg : Good g ar) (r : WReach g ro ar calm h s) {t : Nat} {c : Call} {P : Prog Ret} (hc : s.run t = some (c, P)) {n : Nat}
    {h' : List CEv} {s' : CSys} (sp : Spends ro ar calm t h s n h' s') : n ≤ c.maxActions g := by
  obtain ⟨⟨_, r', _⟩, _⟩ := r.shadow hg
  obtain ⟨hro, rfl⟩ := r'.roOk hg
  have : ∃ P', s'.run t = some (c, P') ∧ n ≤ c.maxActions ro.g ∧ P'.Short (c.maxActions ro.g - n) := by
    induction sp with
    | refl => exact ⟨P, hc, Nat.zero_le _, r.short hc⟩
    | own sp hc' hf ih =>
      obtain ⟨P', h1, h2, h3⟩ := ih
      rw [hc'] at h1
      cases h1
      refine ⟨_, if_pos rfl, ?_, (h3.2 _).mono (by omega)⟩
      have := h3.1
      omega
    | rest sp st e ih =>
      obtain ⟨P', h1, h2, h3⟩ := ih
      exact ⟨P', e.trans h1, h2, h3⟩
  obtain ⟨_, _, h2, _⟩ := this
  exact h2

/-- C63. In an infinite execution of any number of threads, a thread that is not kept from running forever returns from its
call (unless another thread forks and the execution is followed in the child, where the thread does not exist). -/
theorem c63_returns (hg : Good g ar) {e : Nat → List CEv × CSys} (r : WReach g ro ar calm (e 0).1 (e 0).2)
    (st : ∀ i, WStep ro ar calm (e i).1 (e i).2 (e (i + 1)).1 (e (i + 1)).2) {t : Nat} {c : Call} {P : Prog Ret} (hc : (e 0).2.run t = some (c, P))
    (fair : ∀ i, ∃ j, i ≤ j ∧ (e (j + 1)).2.run t ≠ (e j).2.run t) :
    ∃ j, (∃ x, (e (j + 1)).1 = .ret t c x :: (e j).1) ∨ ∃ u, (e (j + 1)).1 = .fork u :: (e j).1 := by
  by_contra hn
  have hn := not_exists.mp hn
  -- one step
  have one : ∀ i n P', Spends ro ar calm t (e 0).1 (e 0).2 n (e i).1 (e i).2 → (e i).2.run t = some (c, P') →
      ∃ n' P', Spends ro ar calm t (e 0).1 (e 0).2 n' (e (i + 1)).1 (e (i + 1)).2 ∧ (e (i + 1)).2.run t = some (c, P') ∧
        n ≤ n' ∧ ((e (i + 1)).2.run t ≠ (e i).2.run t → n < n') := by
    intro i n P' sp hp
    by_cases hne : (e (i + 1)).2.run t = (e i).2.run t
    · exact ⟨n, P', .rest sp (st i) hne, hne.trans hp, le_rfl, fun h => absurd hne h⟩
    have h1 := st i
    have h2 := not_or.mp (hn i)
    have h3 := not_exists.mp h2.1
    have h4 := not_exists.mp h2.2
    revert sp hp hne h1 h3 h4
    generalize (e i).1 = a, (e i).2 = b, (e (i + 1)).1 = a', (e (i + 1)).2 = b'
    intro sp hp hne h1 h3 h4
    cases h1 with
    | invoke u c' b hi hok hl =>
      by_cases hu : t = u
      · subst hu; rw [hp] at hi; cases hi
      · exact absurd (if_neg hu) hne
    | step u hc' he hf =>
      by_cases hu : t = u
      · subst hu
        have := hc'.symm.trans hp
        cases this
        exact ⟨n + 1, _, .own sp hc' hf, if_pos rfl, Nat.le_succ _, fun _ => Nat.lt_succ_self _⟩
      · exact absurd (if_neg hu) hne
    | ret u hc' =>
      by_cases hu : t = u
      · subst hu
        have := hc'.symm.trans hp
        cases this
        exact absurd rfl (h3 _)
      · exact absurd (if_neg hu) hne
    | store x v => exact absurd rfl hne
    | errno u err hi => exact absurd rfl hne
    | fork u hi => exact absurd rfl (h4 _)
    | other pg pr data hp' => exact absurd rfl hne
  -- any number of steps
  have many : ∀ i n P', Spends ro ar calm t (e 0).1 (e 0).2 n (e i).1 (e i).2 → (e i).2.run t = some (c, P') → ∀ d,
      ∃ n' P', Spends ro ar calm t (e 0).1 (e 0).2 n' (e (i + d)).1 (e (i + d)).2 ∧ (e (i + d)).2.run t = some (c, P') ∧ n ≤ n' := by
    intro i n P' sp hp d
    induction d with
    | zero => exact ⟨n, P', sp, hp, le_rfl⟩
    | succ d ih =>
      obtain ⟨n1, P1, h1, h2, h3⟩ := ih
      obtain ⟨n2, P2, h4, h5, h6, _⟩ := one _ n1 P1 h1 h2
      exact ⟨n2, P2, h4, h5, h3.trans h6⟩
  have all : ∀ N, ∃ i n P', Spends ro ar calm t (e 0).1 (e 0).2 n (e i).1 (e i).2 ∧ (e i).2.run t = some (c, P') ∧ N ≤ n := by
    intro N
    induction N with
    | zero => exact ⟨0, 0, P, .refl, hc, le_rfl⟩
    | succ N ih =>
      obtain ⟨i, n, P', h1, h2, h3⟩ := ih
      obtain ⟨j, hj, hne⟩ := fair i
      obtain ⟨d, rfl⟩ := Nat.le.dest hj
      obtain ⟨n1, P1, h4, h5, h6⟩ := many i n P' h1 h2 d
      obtain ⟨n2, P2, h7, h8, _, h9⟩ := one _ n1 P1 h4 h5
      have := h9 hne
      exact ⟨_, n2, P2, h7, h8, by omega⟩
  obtain ⟨i, n, _, h1, _, h2⟩ := all (c.maxActions g + 1)
  have := c63_bounded hg r hc h1
  omega

/-- `n` actions of thread `t` while no other thread runs; the kernel answers the `i`-th with `chs i`. -/
inductive Solo (t : Nat) (chs : Nat → Choice) (s0 : CSys) : Nat → CSys → Prop where
  | refl : Solo t chs s0 0 s0
  | act {n : Nat} {s : CSys} (r : Solo t chs s0 n s) {c : Call} {β : Type} {l : Option Sect} {f : Choice → St → Tl → Res (St × Tl × β)} {k : β → Prog Ret}
      (hc : s.run t = some (c, .act (l := l) f k)) {σ' : St} {tl' : Tl} {b : β} (hf : f (chs n) s.σ (s.tl t) = .ok (σ', tl', b)) :
      Solo t chs s0 (n + 1) ⟨σ', upd s.tl t tl', upd s.run t (some (c, k b)), s.start⟩

theorem Solo.spends {t : Nat} {chs : Nat → Choice} {n : Nat} {s0 : CSys} (h : Solo t chs s0 n s) {h0 : List CEv} : Spends ro ar calm t h0 s0 n h0 s := by
  induction h with
  | refl => exact .refl
  | act r hc hf ih => exact .own ih hc hf

/-- C63. In whatever state the other threads are in the middle of their calls: a thread that runs alone finishes its call, after
at most `maxActions` actions. It does not have to wait for another thread to finish a call. (The application only stores to
blocks it has, and the kernel refuses system calls only for lack of memory.) -/
theorem c63_alone_partial (hg : Good g ar) (r : CReach g ro ar calm h s) {t : Nat} {c : Call} {P : Prog Ret} (hc : s.run t = some (c, P)) {chs : Nat → Choice}
    (he : ∀ n, CEnv calm c (chs n)) (hk : ∀ n, (∀ m, (chs n).sys m ≠ .other) ∧ (chs n).growRemap ≠ .other ∧ (chs n).trailUnmap ≠ .other) :
    ∃ n s' x, n ≤ c.maxActions g ∧ Solo t chs s n s' ∧ CReach g ro ar calm h s' ∧ s'.run t = some (c, .ret x) := by
  obtain ⟨hro, rfl⟩ := r.roOk hg
  have key : ∀ P m n s', s'.run t = some (c, P) → P.Short m → n + m ≤ c.maxActions ro.g → Solo t chs s n s' → CReach ro.g ro ar calm h s' →
      ∃ n s' x, n ≤ c.maxActions ro.g ∧ Solo t chs s n s' ∧ CReach ro.g ro ar calm h s' ∧ s'.run t = some (c, .ret x) := by
    intro P
    induction P with
    | ret x => exact fun m n s' h1 _ h2 h3 h4 => ⟨n, s', x, by omega, h3, h4, h1⟩
    | act f k ih =>
      intro m n s' h1 h2 h3 h4 h5
      have h6 := c36_no_abort_partial hg h5 h1 (he n)
      revert h6
      cases hf : f (chs n) s'.σ (s'.tl t) with
      | ok y =>
        intro _
        obtain ⟨σ', tl', b⟩ := y
        have := h2.1
        exact ih b (m - 1) (n + 1) _ (if_pos rfl) (h2.2 b) (by omega) (.act h4 h1 hf) (.step h5 t h1 (he n) hf)
      | fatal m =>
        obtain ⟨k1, k2, k3⟩ := hk n
        exact fun h => absurd h (by rintro (⟨m, h⟩ | h | h); exacts [k1 m h, k2 h, k3 h])
      | segv => exact fun h => h.elim
      | ub _ => exact fun h => h.elim
      | hang => exact fun h => h.elim
  exact key P _ 0 s hc (r.short hc) (by omega) .refl r

/-! ### These things happen -/

theorem next_step (hg : Good g ar) (rc : CReach g ro ar calm h s) (rw : WReach g ro ar calm h s) (t : Nat) :
    ∃ h' s', CReach g ro ar calm h' s' ∧ WReach g ro ar calm h' s' ∧ WStep ro ar calm h s h' s' ∧ s'.run t ≠ s.run t := by
  cases hr : s.run t with
  | none =>
    exact ⟨_, _, rc.invoke t (.objectSizeFast 0) 0 hr (by show 0 < W64; decide) rfl, rw.invoke t (.objectSizeFast 0) 0 hr (by show 0 < W64; decide) rfl,
      .invoke t (.objectSizeFast 0) 0 hr (by show 0 < W64; decide) rfl, by simp [upd]⟩
  | some x =>
    obtain ⟨c, P⟩ := x
    cases P with
    | ret x => exact ⟨_, _, rc.ret t hr, rw.ret t hr, .ret t hr, by simp [upd]⟩
    | act f k =>
      have he := exAt_cenv calm 0 c
      have h6 := c36_no_abort_partial hg rc hr he
      revert h6
      cases hf : f (exAt 0) s.σ (s.tl t) with
      | ok y =>
        intro _
        obtain ⟨σ', tl', b⟩ := y
        refine ⟨_, _, rc.step t hr he hf, rw.step t hr he hf, .step t hr he hf, fun e => ?_⟩
        exact Prog.ne_cont _ b rfl (by simpa [upd] using e)
      | fatal m => exact fun h => absurd h (by simp [exAt, Choice.quiet])
      | segv => exact fun h => h.elim
      | ub _ => exact fun h => h.elim
      | hang => exact fun h => h.elim

/-- The state after a thread has begun a call is followed by infinite executions in which the thread is not kept from running.
Here another thread is in the middle of a call, too, and never continues. -/
example : ∃ e : Nat → List CEv × CSys, WReach (exCfg true true) (exRo true true) (fun t => t % 4) true (e 0).1 (e 0).2 ∧
    (∀ i, WStep (exRo true true) (fun t => t % 4) true (e i).1 (e i).2 (e (i + 1)).1 (e (i + 1)).2) ∧
    (∃ P, (e 0).2.run 3 = some (.malloc 100, P)) ∧ (∃ P, (e 0).2.run 2 = some (.malloc 20000, P)) ∧
    ∀ i, ∃ j, i ≤ j ∧ (e (j + 1)).2.run 3 ≠ (e j).2.run 3 := by
  have hg := exGood true true
  let X := { x : List CEv × CSys // CReach (exCfg true true) (exRo true true) (fun t => t % 4) true x.1 x.2 ∧
    WReach (exCfg true true) (exRo true true) (fun t => t % 4) true x.1 x.2 }
  have nx : ∀ x : X, ∃ y : X, WStep (exRo true true) (fun t => t % 4) true x.1.1 x.1.2 y.1.1 y.1.2 ∧ y.1.2.run 3 ≠ x.1.2.run 3 := by
    intro x
    obtain ⟨h', s', h1, h2, h3⟩ := next_step hg x.2.1 x.2.2 3
    exact ⟨⟨(h', s'), h1, h2⟩, h3⟩
  choose nx hnx using nx
  let x0 : X := ⟨(_, _),
    ((CReach.init (tl := fun _ => ⟨0, false⟩) (exInit true true) fun _ => rfl).invoke 3 (.malloc 100) 0 rfl (by show 100 < W64; decide) rfl).invoke 2 (.malloc 20000) 0 rfl (by show 20000 < W64; decide) rfl,
    ((WReach.init (tl := fun _ => ⟨0, false⟩) (exInit true true) fun _ => rfl).invoke 3 (.malloc 100) 0 rfl (by show 100 < W64; decide) rfl).invoke 2 (.malloc 20000) 0 rfl (by show 20000 < W64; decide) rfl⟩
  exact ⟨fun i => (nx^[i] x0).1, x0.2.2, fun i => by simp only [Function.iterate_succ_apply']; exact (hnx _).1, ⟨_, rfl⟩, ⟨_, rfl⟩,
    fun i => ⟨i, le_rfl, by simp only [Function.iterate_succ_apply']; exact (hnx _).2⟩⟩

/-- `c63_alone_partial` applies to a thread in the middle of a call, about to lock the size class that another thread, in the
middle of a call as well, has just used. -/
example : ∃ h s c P, CReach (exCfg true true) (exRo true true) (fun t => t % 4) false h s ∧ s.run 4 = some (c, P) ∧
    s.next 4 = some (.cls 0 7 none) ∧ s.phase 0 = some none ∧ ∃ s' x n, n ≤ 21 ∧ Solo 4 (fun _ => exAt 0) s n s' ∧ s'.run 4 = some (c, .ret x) ∧ s'.run 0 = s.run 0 := by
  obtain ⟨h, s, r, e⟩ := ex_conc (stats := true) (sealed := true) (calm := false)
    [.inv 0 (.malloc 100) 0, .inv 4 (.malloc 100) 0, .go 0 2 0, .go 4 1 0]
    (fun _ s => decide (s.next 4 = some (.cls 0 7 none)) && decide (s.phase 0 = some none) && decide ((s.run 4).map (·.1) = some (.malloc 100))) (by decide +kernel)
  simp only [Bool.and_eq_true, decide_eq_true_eq] at e
  obtain ⟨⟨e0, e1⟩, e2⟩ := e
  obtain ⟨⟨c, P⟩, e3, e4⟩ := Option.map_eq_some_iff.mp e2
  cases e4
  obtain ⟨n, s', x, h1, h2, h0, h3⟩ := c63_alone_partial (exGood true true) r e3 (chs := fun _ => exAt 0) (fun _ => exAt_cenv _ _ _)
    fun _ => by simp [exAt, Choice.quiet]
  refine ⟨h, s, _, P, r, e3, e0, e1, s', x, n, h1, h2, h3, ?_⟩
  clear h0 h1 h3
  induction h2 with
  | refl => rfl
  | act r hc hf ih => exact ih

end HM
