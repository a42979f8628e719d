import Verif.ConcExample
/-
C36, C38: interleaved calls of any number of threads, and forks. `CReach g ro ar calm h s`: state `s` is reached with
history `h` by threads whose calls are interleaved in any order. `(hold h).live p = some i`: the application may use block
`p`, which was requested as described by `i`.

The theorems on C36 that are called partial are so for one reason: `CEnv` excludes that, during a call that asks for an
alignment above the page size, the kernel refuses to release the end of the mapping; `c36_lead_unmapped_twice` shows that they
are false without this. During all other calls the kernel may answer every system call as it likes (`c36_any_answer`).
-/
namespace HM

variable {g : Cfg} {ro : Ro} {ar : Nat → Nat} {calm : Bool} {h : List CEv} {s : CSys}

/-- C36. At every moment, whatever the other threads are doing, `malloc_usable_size` of a block that the application may
use is at least the size requested, and all bytes up to there can be read and written. -/
theorem c36_usable_partial (hg : Good g ar) (r : CReach g ro ar calm h s) {p : Nat} {i : Info} (hl : (hold h).live p = some i) :
    (∃ u, Usable ro s.σ p u) ∧ ∀ u, Usable ro s.σ p u → i.size ≤ u ∧ ∀ x, p ≤ x → x < p + u → s.σ.vm.prot (x / 4096) = .rw := by
  obtain ⟨hro, _⟩ := r.roOk hg
  obtain ⟨w, _, I⟩ := r.inv hg
  have hs : ((hold h).live p).isSome = true := by rw [hl]; rfl
  obtain ⟨u, h1, h2⟩ := (I.sized p i hl).usable I.inv
  refine ⟨⟨u, (I.usable_iff hro hs).mpr h1⟩, fun v hv => ?_⟩
  have hv := (I.usable_iff hro hs).mp hv
  rw [h1.uniq hro I.inv hv] at h2
  refine ⟨h2, fun x q1 q2 => ?_⟩
  rw [← I.σ]
  exact UserByte.rw hro I.inv (UsableIs.user' (I.eff hs) hv (by unfold inRange; omega))

/-- C36. At every moment two blocks that the application may use have no byte in common. -/
theorem c36_disjoint_partial (hg : Good g ar) (r : CReach g ro ar calm h s) {p q u v : Nat} (hne : p ≠ q) (hp : ((hold h).live p).isSome)
    (hq : ((hold h).live q).isSome) (hu : Usable ro s.σ p u) (hv : Usable ro s.σ q v) (x : Nat) :
    ¬ ((p ≤ x ∧ x < p + u) ∧ (q ≤ x ∧ x < q + v)) := by
  obtain ⟨hro, _⟩ := r.roOk hg
  obtain ⟨w, _, I⟩ := r.inv hg
  rintro ⟨⟨q1, q2⟩, q3, q4⟩
  exact hne (UserByte.disjoint hro I.inv (UsableIs.user' (I.eff hp) ((I.usable_iff hro hp).mp hu) (x := x) (by unfold inRange; omega))
    (UsableIs.user' (I.eff hq) ((I.usable_iff hro hq).mp hv) (by unfold inRange; omega)))

/-- C36. The alignment of blocks that were requested with an alignment. -/
theorem c36_aligned (hg : Good g ar) (r : CReach g ro ar calm h s) {p n al : Nat} (hl : (hold h).live p = some ⟨n, some al⟩) :
    p % al = 0 := by
  obtain ⟨w, _, I⟩ := r.inv hg
  exact (I.sized p _ hl).2.2.1

/-- C36. No action of a call, of whichever thread, changes a block that the application may use: it has the same usable
size, the same contents, and is still accessible. -/
theorem c36_untouched_partial (hg : Good g ar) (r : CReach g ro ar calm h s) {t : Nat} {c : Call} {β : Type} {l : Option Sect} {f : Choice → St → Tl → Res (St × Tl × β)}
    {k : β → Prog Ret} (hc : s.run t = some (c, .act (l := l) f k)) {ch : Choice} (he : CEnv calm c ch) {σ' : St} {tl' : Tl} {b : β}
    (hf : f ch s.σ (s.tl t) = .ok (σ', tl', b)) {p u : Nat} (hl : ((hold h).live p).isSome) (hu : Usable ro s.σ p u) :
    Usable ro σ' p u ∧ ∀ x, p ≤ x → x < p + u → σ'.vm.mem x = s.σ.vm.mem x ∧ σ'.vm.prot (x / 4096) = .rw := by
  obtain ⟨hro, _⟩ := r.roOk hg
  obtain ⟨w, _, I⟩ := r.inv hg
  obtain ⟨ch', hs, hch, _⟩ := I.settle hc he
  have h1 := (I.wp hc).2 ch' (I.env ▸ hs.fair)
  rw [hch, I.σ, hf] at h1
  obtain ⟨G', h2, h3⟩ := h1
  have I' := I.act h2.toTrans (P' := some (c, k b)) (fun c' P e => by cases e; exact ⟨fun hp => ((I.run t _ _ hc).1 hp).2 _, fun w' r => h3 w' r⟩) (fun e => by cases e)
  have kp := I.keep h2.toTrans (by simp) hl
  have hu := (I.usable_iff hro hl).mp hu
  refine ⟨(I'.usable_iff hro hl).mpr (kp.usable hu), fun x q1 q2 => ?_⟩
  obtain ⟨k1, k2⟩ := kp.user (UsableIs.user' (I.eff hl) hu (x := x) (by unfold inRange; omega))
  refine ⟨?_, k1.rw hro h2.inv⟩
  rw [← I.σ]; exact k2

/-- C36. No call fails because of what other threads do: the next action of a call never accesses memory it may not access
or has undefined behaviour or does not terminate, and it does not abort unless the kernel refuses a system call for a
reason other than lack of memory. -/
theorem c36_no_abort_partial (hg : Good g ar) (r : CReach g ro ar calm h s) {t : Nat} {c : Call} {β : Type} {l : Option Sect} {f : Choice → St → Tl → Res (St × Tl × β)}
    {k : β → Prog Ret} (hc : s.run t = some (c, .act (l := l) f k)) {ch : Choice} (he : CEnv calm c ch) :
    match f ch s.σ (s.tl t) with
    | .ok _ => True
    | .fatal _ => (∃ n, ch.sys n = .other) ∨ ch.growRemap = .other ∨ ch.trailUnmap = .other
    | _ => False := by
  obtain ⟨hro, _⟩ := r.roOk hg
  obtain ⟨w, _, I⟩ := r.inv hg
  obtain ⟨ch', hs, hch, ho⟩ := I.settle hc he
  have h1 := (I.wp hc).2 ch' (I.env ▸ hs.fair)
  rw [hch, I.σ] at h1
  revert h1
  cases f ch s.σ (s.tl t) with
  | ok x => intro _; trivial
  | fatal m => exact fun h => h.elim ho fun d => (I.content.not_dirty hro d).elim
  | segv => exact id
  | ub m => exact id
  | hang => exact id

/-- C36. A block that a call of `malloc`, `calloc`, `aligned_alloc`, … (or of `realloc`, if the result is not its argument)
returns is not one that the application already has. -/
theorem c36_fresh (hg : Good g ar) (r : CReach g ro ar calm h s) {t : Nat} {c : Call} {x : Ret} (hc : s.run t = some (c, .ret x))
    {p : Nat} (hx : x.block = some p) (hm : (∃ i, c.request = some i) ∨ ∃ q n, c = .realloc q n) : (hold h).live p = none := by
  obtain ⟨w, _, I⟩ := r.inv hg
  obtain ⟨_, d⟩ := I.done hc
  have : ∃ i, c.gives ((hold h).hand t) x = some (p, i) := by
    rcases hm with ⟨i, hi⟩ | ⟨q, n, rfl⟩
    · refine ⟨i, ?_⟩
      cases c <;> first | (cases hi; done) | (unfold Call.gives; simp only [hi, hx])
    · exact ⟨_, by unfold Call.gives; simp only [hx]; rfl⟩
  obtain ⟨i, hi⟩ := this
  have hb := (d.gives p i hi).1.blk
  cases e : (hold h).live p with
  | none => rfl
  | some j => rw [I.live_app e] at hb; cases hb

/-- C36. After a call of an allocation function returned a block, the application has that block, as requested. (With
`c36_usable_partial` and `c36_aligned`: it has the size and the alignment requested.) -/
theorem c36_returned (r : CReach g ro ar calm h s) {t : Nat} {c : Call} {x : Ret} (hc : s.run t = some (c, .ret x))
    {p : Nat} {i : Info} (hx : x.block = some p) (hr : c.request = some i) :
    ∃ s', CReach g ro ar calm (.ret t c x :: h) s' ∧ s'.σ = s.σ ∧ (hold (.ret t c x :: h)).live p = some i := by
  refine ⟨_, r.ret t hc, rfl, ?_⟩
  have : c.gives ((hold h).hand t) x = some (p, i) := by
    cases c <;> first | (cases hr; done) | (unfold Call.gives; simp only [hr, hx])
  show (match c.gives ((hold h).hand t) x with | some (q, i) => _ | none => _) = _
  rw [this]
  simp

/-- C36. `calloc` returns a zeroed block, however its call was interleaved with others. -/
theorem c36_calloc (hg : Good g ar) (r : CReach g ro ar calm h s) {t n k : Nat} {x : Ret} (hc : s.run t = some (.calloc n k, .ret x))
    {p : Nat} (hx : x.block = some p) (y : Nat) (h1 : p ≤ y) (h2 : y < p + n * k) : s.σ.vm.mem y = 0#8 := by
  obtain ⟨w, _, I⟩ := r.inv hg
  rw [← I.σ]
  exact (I.done hc).2.zero n k rfl p hx y (by unfold inRange; omega)

/-- C36. `realloc` preserves the contents, however its call was interleaved with others: the new block begins with what the
old one contained when the call began, and if `realloc` fails the old block is as before, and the application has it. -/
theorem c36_realloc (hg : Good g ar) (r : CReach g ro ar calm h s) {t p n : Nat} {x : Ret} (hc : s.run t = some (.realloc p n, .ret x))
    (hp : p ≠ 0) {u : Nat} (hu : Usable ro (s.start t) p u) :
    (∀ q, x.block = some q → ∀ y, y < n → y < u → s.σ.vm.mem (q + y) = (s.start t).vm.mem (p + y)) ∧
    (x.block = none → ∀ y, p ≤ y → y < p + u → s.σ.vm.mem y = (s.start t).vm.mem y) := by
  obtain ⟨w, _, I⟩ := r.inv hg
  rw [← I.σ]
  exact ⟨fun q hq y => (I.done hc).2.moved p n rfl hp q hq u hu y, fun hn y h1 h2 => (I.done hc).2.kept p n rfl hn u hu y (by unfold inRange; omega)⟩

/-- C36. `malloc_usable_size` returns the same as if no other thread had made calls, and the block keeps its contents. -/
theorem c36_usable_size (hg : Good g ar) (r : CReach g ro ar calm h s) {t p : Nat} {x : Ret} (hc : s.run t = some (.usableSize p, .ret x)) (hp : p ≠ 0) :
    ∃ u, x = .num u ∧ Usable ro (s.start t) p u ∧ ∀ y, p ≤ y → y < p + u → s.σ.vm.mem y = (s.start t).vm.mem y := by
  obtain ⟨w, _, I⟩ := r.inv hg
  rw [← I.σ]
  obtain ⟨u, h1, _, h2, h3⟩ := (I.done hc).2.usable p rfl
  exact ⟨u, h1, h2 hp, fun y q1 q2 => h3 y (by unfold inRange; omega)⟩

/-- C36. A `realloc` that fails leaves the application with the block as it was requested; one that succeeds leaves it with
the returned block and the new size. `malloc_usable_size` gives the block back. A freed block is gone. -/
theorem c36_hand {t p : Nat} {i : Info} (hh : (hold h).hand t = some (p, i)) (x : Ret) :
    (∀ n, x.block = none → (hold (.ret t (.realloc p n) x :: h)).live p = some i) ∧
    (∀ n q, x.block = some q → ∃ al, (hold (.ret t (.realloc p n) x :: h)).live q = some ⟨n, al⟩) ∧
    (hold (.ret t (.usableSize p) x :: h)).live p = some i ∧
    (hold (.ret t (.free p) x :: h)).live = (hold h).live := by
  refine ⟨fun n hx => ?_, fun n q hx => ?_, ?_, rfl⟩
  · simp only [hold, Hold.step, Call.gives, hx, hh, if_true]
  · exact ⟨_, by simp only [hold, Hold.step, Call.gives, hx, if_true]; rfl⟩
  · simp only [hold, Hold.step, Call.gives, hh, if_true]

/-- C36. The block passed to `free`, `realloc`, … is no longer one of the application while the call is in progress. -/
theorem c36_lent {t : Nat} {c : Call} {p : Nat} {i : Info} (hl : (hold h).live p = some i) :
    (hold (.inv t c p :: h)).live p = none ∧ (hold (.inv t c p :: h)).hand t = some (p, i) ∧
    ∀ q, q ≠ p → (hold (.inv t c p :: h)).live q = (hold h).live q :=
  ⟨by simp [hold, Hold.step], by simp [hold, Hold.step, hl], fun q hq => by simp [hold, Hold.step, hq]⟩

/-- C38. In the child of a fork every block of the application is as it was in the parent, even if other threads of the
parent were in the middle of calls. -/
theorem c38_blocks (hg : Good g ar) (r : CReach g ro ar calm h s) {t : Nat} (hi : s.run t = none) :
    ∃ s', CReach g ro ar calm (.fork t :: h) s' ∧ (∀ u, s'.run u = none) ∧ s'.tl t = s.tl t ∧
      ∀ p i u, (hold h).live p = some i → Usable ro s.σ p u →
        (hold (.fork t :: h)).live p = some i ∧ Usable ro s'.σ p u ∧ i.size ≤ u ∧
        ∀ x, p ≤ x → x < p + u → s'.σ.vm.mem x = s.σ.vm.mem x ∧ s'.σ.vm.prot (x / 4096) = .rw := by
  refine ⟨_, r.fork t hi, fun _ => rfl, if_pos rfl, fun p i u hl hu => ⟨hl, hu, ?_⟩⟩
  obtain ⟨h1, h2⟩ := (c36_usable_partial hg r hl).2 u hu
  exact ⟨h1, fun x q1 q2 => ⟨rfl, h2 x q1 q2⟩⟩

/-- C38. After a fork the child can go on making calls: any allowed call can begin, and (`c36_no_abort_partial`) none of its
actions fails because of calls that were in progress in the parent. -/
theorem c38_calls (r : CReach g ro ar calm h s) {t u : Nat} (hi : s.run t = none) {c : Call} {b : Nat} (hok : c.Ok) (hl : Lends ro (hold h) s.σ b c) :
    ∃ s', CReach g ro ar calm (.inv u c b :: .fork t :: h) s' ∧ s'.run u = some (c, c.prog ro (ar u)) :=
  ⟨_, (r.fork t hi).invoke u c b rfl hok hl, if_pos rfl⟩

/-! ### The hypotheses are met -/

/-- Whether thread `t` is about to perform an action of its call, about to return, or idle. -/
def CSys.phase (s : CSys) (t : Nat) : Option (Option Nat) :=
  match s.run t with
  | none => none
  | some (_, .act _ _) => some none
  | some (_, .ret x) => some (some x.toNat)

theorem CSys.phase_act {t : Nat} (e : s.phase t = some none) : ∃ (c : Call) (β : Type) (l : Option Sect) (f : Choice → St → Tl → Res (St × Tl × β)) (k : β → Prog Ret),
    s.run t = some (c, .act (l := l) f k) := by
  unfold CSys.phase at e
  cases h : s.run t with
  | none => rw [h] at e; cases e
  | some x =>
    obtain ⟨c, P⟩ := x
    cases P with
    | ret y => rw [h] at e; cases e
    | act f k => exact ⟨c, _, _, f, k, rfl⟩

theorem CSys.phase_ret {t n : Nat} (e : s.phase t = some (some n)) : ∃ c x, s.run t = some (c, .ret x) ∧ x.toNat = n := by
  unfold CSys.phase at e
  cases h : s.run t with
  | none => rw [h] at e; cases e
  | some x =>
    obtain ⟨c, P⟩ := x
    cases P with
    | ret y => rw [h] at e; simp only [Option.some.injEq] at e; exact ⟨c, y, rfl, e⟩
    | act f k => rw [h] at e; cases e

/-- Thread 1 is in the middle of mapping a large block, thread 4, in the same arena as thread 0, in the middle of `calloc`,
thread 0 has stored to its block and reallocates it. -/
def exThreads : List ExC :=
  [.inv 0 (.malloc 100) 0, .inv 4 (.calloc 10 10) 0, .go 0 2 0, .go 4 2 0, .inv 1 (.malloc 200000) 0, .go 1 2 exMapAt, .go 0 9 0,
    .ret 0, .store exA 7#8 exA, .inv 2 (.alignedAlloc 64 100) 0, .go 2 99 0, .ret 2]

example : ∃ h s, CReach (exCfg false true) (exRo false true) (fun t => t % 4) false h s ∧
    (hold h).live exA = some ⟨100, none⟩ ∧ Usable (exRo false true) s.σ exA 104 ∧
    (∃ q, q ≠ exA ∧ (hold h).live q = some ⟨100, some 64⟩ ∧ Usable (exRo false true) s.σ q 120) ∧ s.phase 1 = some none ∧ s.phase 4 = some none ∧ s.phase 0 = none ∧
    s.σ.vm.mem exA = 7#8 := by
  obtain ⟨h, s, h1, h2⟩ := ex_conc (stats := false) (sealed := true) (calm := false) exThreads
    (fun h s => decide ((hold h).live exA = some ⟨100, none⟩) && decide (usableB (exRo false true) s.σ exA = some 104) &&
      decide ((hold h).live 8383776165888 = some ⟨100, some 64⟩) && decide (usableB (exRo false true) s.σ 8383776165888 = some 120) &&
      decide (s.phase 1 = some none) && decide (s.phase 4 = some none) && decide (s.phase 0 = none) && decide (s.σ.vm.mem exA = 7#8)) (by decide +kernel)
  simp only [Bool.and_eq_true, decide_eq_true_eq] at h2
  obtain ⟨⟨⟨⟨⟨⟨⟨k1, k2⟩, k3⟩, k4⟩, k5⟩, k6⟩, k7⟩, k8⟩ := h2
  exact ⟨h, s, h1, k1, usableB_usable k2, ⟨_, by decide, k3, usableB_usable k4⟩, k5, k6, k7, k8⟩

/-- The same, later: the `calloc` of thread 4 is about to return, and so is the `realloc` of thread 0, which moves the block. -/
example : ∃ h s, CReach (exCfg false true) (exRo false true) (fun t => t % 4) false h s ∧
    (∃ c x, s.run 4 = some (c, .ret x) ∧ x.toNat = exB) ∧ (∃ c x, s.run 0 = some (c, .ret x) ∧ x.toNat ≠ 0 ∧ s.σ.vm.mem x.toNat = 7#8) ∧
    s.phase 1 = some none ∧ Usable (exRo false true) (s.start 0) exA 104 := by
  obtain ⟨h, s, h1, h2⟩ := ex_conc (stats := false) (sealed := true) (calm := false)
    (exThreads ++ [.inv 0 (.realloc exA 300) exA, .go 0 3 0, .go 4 99 0, .go 0 99 0])
    (fun h s => decide (s.phase 4 = some (some exB)) && ((s.phase 0).getD none).any (fun n => decide (n ≠ 0) && decide (s.σ.vm.mem n = 7#8)) &&
      decide (s.phase 1 = some none) && decide (usableB (exRo false true) (s.start 0) exA = some 104)) (by decide +kernel)
  simp only [Bool.and_eq_true, decide_eq_true_eq, Option.any_eq_true] at h2
  obtain ⟨⟨⟨k1, n, k2, k3, k4⟩, k5⟩, k6⟩ := h2
  refine ⟨h, s, h1, CSys.phase_ret k1, ?_, k5, usableB_usable k6⟩
  cases e : s.phase 0 with
  | none => rw [e] at k2; cases k2
  | some y =>
    rw [e] at k2
    cases (show y = some n from k2)
    obtain ⟨c, x, h3, h4⟩ := CSys.phase_ret e
    exact ⟨c, x, h3, h4 ▸ k3, h4 ▸ k4⟩

/-- A fork while threads 1 and 4 are in the middle of calls, after which the child frees a block and allocates. -/
example : ∃ h s, CReach (exCfg false true) (exRo false true) (fun t => t % 4) false h s ∧
    CEv.fork 0 ∈ h ∧ (hold h).live exA = none ∧ (∃ q, (hold h).live q = some ⟨20, none⟩) ∧ (∃ q, (hold h).live q = some ⟨100, some 64⟩) := by
  obtain ⟨h, s, h1, h2⟩ := ex_conc (stats := false) (sealed := true) (calm := false)
    (exThreads ++ [.fork 0, .inv 0 (.free exA) exA, .go 0 99 0, .ret 0, .inv 7 (.malloc 20) 0, .go 7 99 0, .ret 7])
    (fun h _ => (h.any fun e => match e with | .fork 0 => true | _ => false) && decide ((hold h).live exA = none) &&
      (match h with | .ret _ _ r :: _ => decide ((hold h).live r.toNat = some ⟨20, none⟩) | _ => false) &&
      decide ((hold h).live 8383776165888 = some ⟨100, some 64⟩)) (by decide +kernel)
  simp only [Bool.and_eq_true, decide_eq_true_eq, List.any_eq_true] at h2
  obtain ⟨⟨⟨⟨e, k1, k2⟩, k3⟩, k4⟩, k5⟩ := h2
  refine ⟨h, s, h1, ?_, k3, ?_, _, k5⟩
  · split at k2
    · exact k1
    · cases k2
  · split at k4
    · exact ⟨_, of_decide_eq_true k4⟩
    · cases k4

/-- C36. During a call that does not ask for an alignment above the page size, the theorems exclude no answer of the kernel
other than those of `Env`, which the theorems on calls made one after the other exclude as well. -/
theorem c36_any_answer {c : Call} (hp : match c with | .posixMemalign al _ => al ≤ 4096 | .alignedAlloc al _ => al ≤ 4096 | _ => True) {ch : Choice}
    (he : Env calm ch) : CEnv calm c ch := ⟨he, fun _ => by cases c <;> exact hp⟩

/-- Threads in the middle of calls during which the kernel refuses whatever is asked for under that name. -/
example : CEnv false (.malloc 200000) { exAt 0 with trailUnmap := .enomem, sys := fun _ => .enomem } ∧
    CEnv false (.alignedAlloc 4096 200000) { exAt 0 with trailUnmap := .enomem, sys := fun _ => .enomem } ∧
    ¬ CEnv false (.alignedAlloc 8192 200000) { exAt 0 with trailUnmap := .enomem } :=
  have he : Env false { exAt 0 with trailUnmap := .enomem, sys := fun _ => .enomem } := ⟨by simp [exAt, Choice.quiet], fun e => by cases e⟩
  ⟨c36_any_answer trivial he, c36_any_answer (Nat.le_refl _) he, fun h => absurd (h.2 rfl) (by simp [Call.Plain])⟩

/-- Why `CEnv` excludes one failure: if the kernel refuses to release the end of the mapping for an over-aligned block,
`allocate_pages_aligned` releases the whole mapping, including its beginning, which it has already released (pages.c:67-79).
If another thread has mapped a block there in the meantime, this block of the application is lost. -/
theorem c36_lead_unmapped_twice : ∃ h s, CReach (exCfg false true) (exRo false true) (fun t => t % 4) false h s ∧
    ∃ p u, (hold h).live p = some ⟨200000, none⟩ ∧ Usable (exRo false true) s.σ p u ∧ s.σ.vm.prot (p / 4096) = .rw ∧
    ∃ c P chs σ' tl' x, s.run 0 = some (c, P) ∧ (∀ n, Env false (chs n)) ∧ P.run chs s.σ (s.tl 0) = .ok (σ', tl', x) ∧
      σ'.vm.prot (p / 4096) = .unmapped := by
  obtain ⟨h, s, h1, h2⟩ := ex_conc (stats := false) (sealed := true) (calm := false)
    [.inv 0 (.alignedAlloc 0x100000 200000) 0, .go 0 5 (exMapAt + 0x10000), .inv 1 (.malloc 200000) 0, .go 1 99 (exMapAt + 0x10000), .ret 1]
    (fun h s => decide ((hold h).live 17592186114048 = some ⟨200000, none⟩) && decide (usableB (exRo false true) s.σ 17592186114048 = some 229376) &&
      decide (s.σ.vm.prot (17592186114048 / 4096) = .rw) &&
      (s.run 0).any fun y => match y.2.run (fun n => if n = 0 then { exAt 0 with trailUnmap := .enomem } else exAt 0) s.σ (s.tl 0) with
        | .ok (σ', _) => decide (σ'.vm.prot (17592186114048 / 4096) = .unmapped)
        | _ => false) (by decide +kernel)
  simp only [Bool.and_eq_true, decide_eq_true_eq, Option.any_eq_true] at h2
  obtain ⟨⟨⟨k1, k2⟩, k3⟩, ⟨c, P⟩, k4, k5⟩ := h2
  refine ⟨h, s, h1, _, _, k1, usableB_usable k2, k3, c, P, fun n => if n = 0 then { exAt 0 with trailUnmap := .enomem } else exAt 0, ?_⟩
  revert k5
  cases e : P.run (fun n => if n = 0 then { exAt 0 with trailUnmap := .enomem } else exAt 0) s.σ (s.tl 0) with
  | ok y =>
    obtain ⟨σ', tl', x⟩ := y
    refine fun k5 => ⟨σ', tl', x, k4, fun n => ?_, rfl, of_decide_eq_true k5⟩
    by_cases hn : n = 0
    · simp only [if_pos hn]; exact ⟨by simp [exAt, Choice.quiet], fun e => by cases e⟩
    · simp only [if_neg hn]; exact exAt_env false 0
  | fatal m => intro e; cases e
  | segv => intro e; cases e
  | ub m => intro e; cases e
  | hang => intro e; cases e

end HM
