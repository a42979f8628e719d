import Verif.Wild
/-
C54: stray stores while the calls of several threads are interleaved. `WReach g ro ar calm h s`: state `s` is reached with
history `h` by threads whose calls are interleaved in any order, while any byte that can be written may be overwritten at
any time. `(hold h).live p = some i`: the application has block `p`, which was requested as described by `i`.

The theorems that are called partial are so for the reason given for C36: `CEnv` excludes that, during a call that asks for an
alignment above the page size, the kernel refuses to release the end of the mapping (see `c36_lead_unmapped_twice`).
-/
namespace HM

variable {g : Cfg} {ro : Ro} {ar : Nat → Nat} {calm : Bool} {h : List CEv} {s : CSys}

/-- C54. The calls return what they may return if the application does not store anything: there is an execution with the
same calls, by the same threads in the same order, and the same results, but without the stores. -/
theorem c54_as_without_stores (hg : Good g ar) (r : WReach g ro ar calm h s) : ∃ s', CReach g ro ar calm (dropStores h) s' :=
  have ⟨⟨s', r', _⟩, _⟩ := r.shadow hg
  ⟨s', r'⟩

/-- C54. The bytes that were requested can be read and written, and so can those up to what `malloc_usable_size` returns (if
it does not find the block overwritten), which is not less. -/
theorem c54_usable_partial (hg : Good g ar) (r : WReach g ro ar calm h s) {p : Nat} {i : Info} (hl : (hold h).live p = some i) {u : Nat}
    (hu : u = i.size ∨ Usable ro s.σ p u) : i.size ≤ u ∧ ∀ x, p ≤ x → x < p + u → s.σ.vm.prot (x / 4096) = .rw := by
  obtain ⟨⟨s', r', S⟩, _⟩ := r.shadow hg
  rw [← hold_dropStores] at hl
  obtain ⟨⟨u', hu'⟩, h1⟩ := c36_usable_partial hg r' hl
  rw [S.prot] at h1
  rcases hu with rfl | hu
  · exact ⟨Nat.le_refl _, fun x q1 q2 => (h1 u' hu').2 x q1 (by have := (h1 u' hu').1; omega)⟩
  · exact h1 u (S.usable hg r' hl hu)

/-- C54. Two blocks of the application have no byte in common, up to the sizes requested, and up to those returned by
`malloc_usable_size`. -/
theorem c54_disjoint_partial (hg : Good g ar) (r : WReach g ro ar calm h s) {p q u v : Nat} {i j : Info} (hne : p ≠ q) (hp : (hold h).live p = some i)
    (hq : (hold h).live q = some j) (hu : u = i.size ∨ Usable ro s.σ p u) (hv : v = j.size ∨ Usable ro s.σ q v) (x : Nat) :
    ¬ ((p ≤ x ∧ x < p + u) ∧ (q ≤ x ∧ x < q + v)) := by
  obtain ⟨⟨s', r', S⟩, _⟩ := r.shadow hg
  rw [← hold_dropStores] at hp hq
  have key : ∀ {p u : Nat} {i : Info}, (hold (dropStores h)).live p = some i → (u = i.size ∨ Usable ro s.σ p u) → ∃ w, u ≤ w ∧ Usable ro s'.σ p w := by
    intro p u i hp hu
    obtain ⟨⟨u', hu'⟩, h1⟩ := c36_usable_partial hg r' hp
    rcases hu with rfl | hu
    · exact ⟨u', (h1 u' hu').1, hu'⟩
    · exact ⟨u, Nat.le_refl _, S.usable hg r' hp hu⟩
  obtain ⟨u', h1, hu'⟩ := key hp hu
  obtain ⟨v', h2, hv'⟩ := key hq hv
  have h3 := c36_disjoint_partial hg r' hne (by rw [hp]; rfl) (by rw [hq]; rfl) hu' hv' x
  omega

/-- C54. The alignment of blocks that were requested with an alignment. -/
theorem c54_aligned (hg : Good g ar) (r : WReach g ro ar calm h s) {p n al : Nat} (hl : (hold h).live p = some ⟨n, some al⟩) :
    p % al = 0 := by
  obtain ⟨⟨s', r', S⟩, _⟩ := r.shadow hg
  rw [← hold_dropStores] at hl
  exact c36_aligned hg r' hl

/-- C54. A block that an allocation function returns is not one that the application already has. -/
theorem c54_fresh (hg : Good g ar) (r : WReach g ro ar calm h s) {t : Nat} {c : Call} {x : Ret} (hc : s.run t = some (c, .ret x))
    {p : Nat} (hx : x.block = some p) (hm : (∃ i, c.request = some i) ∨ ∃ q n, c = .realloc q n) : (hold h).live p = none := by
  obtain ⟨⟨s', r', S⟩, _⟩ := r.shadow hg
  rw [← hold_dropStores]
  exact c36_fresh hg r' (by rw [S.run]; exact hc) hx hm

/-- C54. The next action of a call succeeds, or reports that memory was overwritten, or aborts because the kernel refuses a
system call for a reason other than lack of memory. It does not access memory it may not access, has no undefined behaviour,
and terminates. -/
theorem c54_outcomes_partial (hg : Good g ar) (r : WReach g ro ar calm h s) {t : Nat} {c : Call} {β : Type} {l : Option Sect} {f : Choice → St → Tl → Res (St × Tl × β)}
    {k : β → Prog Ret} (hc : s.run t = some (c, .act (l := l) f k)) {ch : Choice} (he : CEnv calm c ch) :
    match f ch s.σ (s.tl t) with
    | .ok _ => True
    | .fatal m => m = "detected write after free" ∨ m = "canary corrupted" ∨ (∃ n, ch.sys n = .other) ∨ ch.growRemap = .other ∨ ch.trailUnmap = .other
    | _ => False := by
  obtain ⟨⟨s', r', S⟩, hB⟩ := r.shadow hg
  have hc' : s'.run t = some (c, .act (l := l) f k) := by rw [S.run]; exact hc
  rcases Shadow.step (ι := Unit) hg (fun _ => dropStores h) (fun _ => s') (fun _ => r') (fun _ => S) hc (hB t c _ hc).act.1 (ch := ch) with
    ⟨m, hm, h1⟩ | ⟨σ0, w, w', tl1, b1, h1, _⟩ | h1
  · rw [h1]; exact hm.imp id Or.inl
  · rw [h1]; trivial
  · have h2 := c36_no_abort_partial hg r' hc' he
    rw [h1.2 ()] at h2
    revert h2
    cases f ch s.σ (s.tl t) with
    | fatal m => exact fun h => .inr (.inr h)
    | _ => exact id

/-- C54. No action of a call, of whichever thread, changes a block of the application: what the application has last stored
there, by whatever pointer, is still there, and the block is still accessible. -/
theorem c54_untouched_partial (hg : Good g ar) (r : WReach g ro ar calm h s) {t : Nat} {c : Call} {β : Type} {l : Option Sect} {f : Choice → St → Tl → Res (St × Tl × β)}
    {k : β → Prog Ret} (hc : s.run t = some (c, .act (l := l) f k)) {ch : Choice} (he : CEnv calm c ch) {σ' : St} {tl' : Tl} {b : β}
    (hf : f ch s.σ (s.tl t) = .ok (σ', tl', b)) {p : Nat} {i : Info} (hl : (hold h).live p = some i) {u : Nat} (hu : u = i.size ∨ Usable ro s.σ p u)
    (x : Nat) (h1 : p ≤ x) (h2 : x < p + u) : σ'.vm.mem x = s.σ.vm.mem x ∧ σ'.vm.prot (x / 4096) = .rw := by
  have hrw := (c54_usable_partial hg r hl hu).2 x h1 h2
  obtain ⟨⟨s', r', S⟩, hB⟩ := r.shadow hg
  have hl' := hl
  rw [← hold_dropStores] at hl'
  have hs : ((hold (dropStores h)).live p).isSome = true := by rw [hl']; rfl
  obtain ⟨u', h3, hu'⟩ : ∃ w, u ≤ w ∧ Usable ro s'.σ p w := by
    obtain ⟨⟨u', hu'⟩, k1⟩ := c36_usable_partial hg r' hl'
    rcases hu with rfl | hu
    · exact ⟨u', (k1 u' hu').1, hu'⟩
    · exact ⟨u, Nat.le_refl _, S.usable hg r' hl' hu⟩
  have rb : ∀ a : BitVec 8, CReach g ro ar calm (.store x a :: dropStores h) ⟨{ s'.σ with vm := s'.σ.vm.appStore x a }, s'.tl, s'.run, s'.start⟩ :=
    fun a => r'.store x a hs hu' h1 (by omega)
  have hst : ∀ a : BitVec 8, s'.σ.vm.appStore x a = { s'.σ.vm with mem := fun y => if y = x then a else s'.σ.vm.mem y } := fun a => by
    unfold Vm.appStore; rw [if_pos (by rw [S.prot]; exact hrw)]
  have Sb : ∀ a : BitVec 8, Shadow s ⟨{ s'.σ with vm := s'.σ.vm.appStore x a }, s'.tl, s'.run, s'.start⟩ := fun a =>
    ⟨congrArg (fun y : St => { y with vm := s'.σ.vm.appStore x a }) S.σ, by show (s'.σ.vm.appStore x a).prot = _; rw [hst]; exact S.prot, S.tl, S.run⟩
  rcases Shadow.step (ι := BitVec 8) hg (fun a => .store x a :: dropStores h) (fun a => ⟨{ s'.σ with vm := s'.σ.vm.appStore x a }, s'.tl, s'.run, s'.start⟩) rb Sb
    hc (hB t c _ hc).act.1 (ch := ch) with ⟨m, _, k1⟩ | ⟨σ0, w, w', tl1, b1, k1, k2, φ, k3, k4⟩ | k1
  · rw [hf] at k1; cases k1
  · rw [hf] at k1
    cases k1
    -- in the state where `a` was stored, `a` is still there
    have k5 : ∀ a : BitVec 8, φ.at (fun y => if y = x then a else s'.σ.vm.mem y) x = a ∧ (w' a).prot (x / 4096) = .rw := fun a => by
      have hua : Usable ro (⟨{ s'.σ with vm := s'.σ.vm.appStore x a }, s'.tl, s'.run, s'.start⟩ : CSys).σ p u' := by
        have : (hold (.store x a :: dropStores h)).live p = some i := hl'
        obtain ⟨⟨u2, hu2⟩, _⟩ := c36_usable_partial hg (rb a) this
        have S2 : Shadow ⟨{ s'.σ with vm := s'.σ.vm.appStore x a }, s'.tl, s'.run, s'.start⟩ s' :=
          ⟨rfl, by show _ = (s'.σ.vm.appStore x a).prot; rw [hst], rfl, rfl⟩
        have hu3 := S2.usable hg r' hl' hu2
        obtain ⟨_, e1⟩ := hu'
        obtain ⟨_, e2⟩ := hu3
        rw [e1] at e2
        cases e2
        exact hu2
      have hk := (c36_untouched_partial hg (rb a) (t := t) (c := c) (f := f) (k := k) (by show s'.run t = _; rw [S.run]; exact hc) he (k2 a).1 (p := p) hs hua).2 x h1
        (by omega)
      refine ⟨?_, hk.2⟩
      have k6 := hk.1
      have k7 := k4 a x
      rw [show ({ σ0 with vm := w' a } : St).vm.mem x = (w' a).mem x from rfl, k7] at k6
      have e : ({ s'.σ with vm := s'.σ.vm.appStore x a } : St).vm.mem = fun y => if y = x then a else s'.σ.vm.mem y := by
        show (s'.σ.vm.appStore x a).mem = _; rw [hst]
      rw [e] at k6
      simpa using k6
    refine ⟨?_, ?_⟩
    · show w.mem x = _
      rw [k3 x]
      have a0 := (k5 0#8).1
      have a1 := (k5 1#8).1
      unfold Subst.at at a0 a1 ⊢
      cases hx : φ x with
      | inr v =>
        rw [hx] at a0 a1
        exact absurd (a0.symm.trans a1) (by decide)
      | inl y =>
        rw [hx] at a0 a1
        simp only at a0 a1 ⊢
        by_cases hy : y = x
        · rw [hy]
        · rw [if_neg hy] at a0 a1
          exact absurd (a0.symm.trans a1) (by decide)
    · have := (k5 0#8).2
      rw [(k2 0#8).2] at this
      exact this
  · exact absurd hf (k1.1 _)

/-! ### The hypotheses are met -/

/-- The condition `WLends`, computed. -/
def wlendsB (H : Hold) (b : Nat) : Call → Bool
  | .free p => b == p && (p == 0 || (H.live p).isSome)
  | .freeSized p n => b == p && (p == 0 || decide (H.live p = some ⟨n, none⟩))
  | .realloc p _ => b == p && (p == 0 || (H.live p).any fun i => i.align.isNone)
  | .usableSize p => b == p && (p == 0 || (H.live p).isSome)
  | .objectSize x => (H.live b).any fun i => decide (b ≤ x) && decide (x < b + i.size)
  | _ => b == 0

theorem wlendsB_lends {H : Hold} {b : Nat} {c : Call} (e : wlendsB H b c = true) : WLends ro H b c := by
  cases c with
  | free p => simpa [wlendsB, WLends] using e
  | usableSize p => simpa [wlendsB, WLends] using e
  | freeSized p n => simpa [wlendsB, WLends] using e
  | realloc p n =>
    simp only [wlendsB, Bool.and_eq_true, beq_iff_eq, Bool.or_eq_true, Option.any_eq_true] at e
    refine ⟨e.1, e.2.imp id fun ⟨i, h1, h2⟩ => ⟨i, h1, fun ⟨⟨al, h3, _⟩, _⟩ => ?_⟩⟩
    rw [h3] at h2; cases h2
  | objectSize x =>
    simp only [wlendsB, Bool.and_eq_true, Option.any_eq_true, decide_eq_true_eq] at e
    exact Or.inr e
  | _ => simpa [wlendsB, WLends] using e

/-- What happens in an example: as `ExC.run`, apart from the stores. -/
def ExC.runW (ro : Ro) (ar : Nat → Nat) (h : List CEv) (s : CSys) : ExC → Option (List CEv × CSys)
  | .inv t c b =>
      if (s.run t).isNone && c.okB && wlendsB (hold h) b c then
        some (.inv t c b :: h, ⟨s.σ, s.tl, upd s.run t (some (c, c.prog ro (ar t))), upd s.start t s.σ⟩)
      else none
  | .store x v _ => some (.store x v :: h, ⟨{ s.σ with vm := s.σ.vm.appStore x v }, s.tl, s.run, s.start⟩)
  | a => a.run ro ar h s

def runW (ro : Ro) (ar : Nat → Nat) : List ExC → List CEv → CSys → Option (List CEv × CSys)
  | [], h, s => some (h, s)
  | a :: as, h, s => (a.runW ro ar h s).bind fun x => runW ro ar as x.1 x.2

theorem WReach.act {s' : CSys} (r : WReach g ro ar calm h s) {t : Nat} {ch : Choice} (he : ∀ c, CEnv calm c ch)
    (e : s.act t ch = some s') : WReach g ro ar calm h s' := by
  unfold CSys.act at e
  cases hr : s.run t with
  | none => rw [hr] at e; cases e
  | some x =>
    obtain ⟨c, P⟩ := x
    rw [hr] at e
    cases P with
    | ret y => cases e
    | act f k =>
      simp only at e
      cases hf : f ch s.σ (s.tl t) with
      | ok y =>
        obtain ⟨σ', tl', b⟩ := y
        rw [hf] at e
        cases e
        exact r.step t hr (he _) hf
      | fatal m => rw [hf] at e; cases e
      | segv => rw [hf] at e; cases e
      | ub m => rw [hf] at e; cases e
      | hang => rw [hf] at e; cases e

theorem WReach.acts {s' : CSys} (r : WReach g ro ar calm h s) {t n : Nat} {ch : Choice} (he : ∀ c, CEnv calm c ch)
    (e : s.acts t ch n = some s') : WReach g ro ar calm h s' := by
  induction n generalizing s with
  | zero => cases e; exact r
  | succ n ih =>
    unfold CSys.acts at e
    split at e
    · cases e; exact r
    · obtain ⟨s1, h1, h2⟩ := Option.bind_eq_some_iff.mp e
      exact ih (r.act he h1) h2

theorem ExC.runW_reach {a : ExC} {h' : List CEv} {s' : CSys} (r : WReach g ro ar calm h s) (e : a.runW ro ar h s = some (h', s')) :
    WReach g ro ar calm h' s' := by
  cases a with
  | inv t c b =>
    simp only [ExC.runW] at e
    split at e
    · rename_i k
      simp only [Bool.and_eq_true, Option.isNone_iff_eq_none] at k
      cases e
      exact r.invoke t c b k.1.1 (Call.okB_ok k.1.2) (wlendsB_lends k.2)
    · cases e
  | go t n a =>
    obtain ⟨s1, h1, h2⟩ := Option.map_eq_some_iff.mp e
    cases h2
    exact r.acts (exAt_cenv calm a) h1
  | ret t =>
    simp only [ExC.runW, ExC.run] at e
    split at e
    · rename_i c x k
      cases e
      exact r.ret t k
    · cases e
  | store x v p => cases e; exact r.store x v
  | fork t =>
    simp only [ExC.runW, ExC.run] at e
    split at e
    · rename_i k
      rw [Option.isNone_iff_eq_none] at k
      cases e
      exact r.fork t k
    · cases e
  | other pg pr v =>
    simp only [ExC.runW, ExC.run] at e
    split at e
    · rename_i k
      rw [Bool.or_eq_true, decide_eq_true_eq] at k
      cases e
      exact r.other pg pr _ k
    · cases e

theorem runW_reach {as : List ExC} {h' : List CEv} {s' : CSys} (r : WReach g ro ar calm h s) (e : runW ro ar as h s = some (h', s')) :
    WReach g ro ar calm h' s' := by
  induction as generalizing h s with
  | nil => cases e; exact r
  | cons a as ih =>
    obtain ⟨⟨h1, s1⟩, k1, k2⟩ := Option.bind_eq_some_iff.mp e
    exact ih (a.runW_reach r k1) k2

/-- An execution with stray stores: what `P` computes from its last state is true. -/
theorem ex_wild {stats sealed calm : Bool} (as : List ExC) (P : List CEv → CSys → Bool)
    (e : ((runW (exRo stats sealed) (fun t => t % 4) as [] ⟨exSt, fun _ => ⟨0, false⟩, fun _ => none, fun _ => exSt⟩).any fun x => P x.1 x.2) = true) :
    ∃ h s, WReach (exCfg stats sealed) (exRo stats sealed) (fun t => t % 4) calm h s ∧ P h s = true := by
  rw [Option.any_eq_true] at e
  obtain ⟨⟨h, s⟩, h1, h2⟩ := e
  exact ⟨h, s, runW_reach (.init (exInit stats sealed) fun _ => rfl) h1, h2⟩

/-- What the next action of thread `t` reports, if it aborts. -/
def CSys.aborts (s : CSys) (t : Nat) (ch : Choice) : Option String :=
  match s.run t with
  | some (_, .act f _) => match f ch s.σ (s.tl t) with | .fatal m => some m | _ => none
  | _ => none

/-- While thread 1 is in the middle of mapping a large block, and thread 4 in the middle of `calloc`, thread 0 writes beyond
the end of its block, overwriting the canary and the block after it, and to addresses where nothing is mapped. All threads
go on; a further block is allocated, and when thread 0 frees its block the canary is found overwritten. -/
def exWild : List ExC :=
  [.inv 0 (.malloc 100) 0, .inv 4 (.calloc 10 10) 0, .go 0 2 0, .go 4 2 0, .inv 1 (.malloc 200000) 0, .go 1 2 exMapAt, .go 0 9 0,
    .ret 0, .store exA 7#8 0, .store (exA + 104) 9#8 0, .store (exA + 110) 9#8 0, .store (exA + 112) 9#8 0, .store exB 9#8 0, .store 12345 9#8 0, .go 4 99 0,
    .inv 2 (.alignedAlloc 64 100) 0, .go 2 99 0, .ret 2, .inv 0 (.free exA) exA, .go 0 1 0]

example : ∃ h s, WReach (exCfg false true) (exRo false true) (fun t => t % 4) false h s ∧
    (∃ q, (hold h).live q = some ⟨100, some 64⟩) ∧ s.phase 1 = some none ∧ s.aborts 0 (exAt 0) = some "canary corrupted" := by
  obtain ⟨h, s, h1, h2⟩ := ex_wild (stats := false) (sealed := true) (calm := false) exWild
    (fun h s => decide ((hold h).live 8383776165888 = some ⟨100, some 64⟩) &&
      decide (s.phase 1 = some none) && decide (s.aborts 0 (exAt 0) = some "canary corrupted")) (by decide +kernel)
  simp only [Bool.and_eq_true, decide_eq_true_eq] at h2
  exact ⟨h, s, h1, ⟨_, h2.1.1⟩, h2.1.2, h2.2⟩

/-- The same before the block is freed: it is in the application's hands with the overwritten canary. -/
example : ∃ h s, WReach (exCfg false true) (exRo false true) (fun t => t % 4) false h s ∧
    (hold h).live exA = some ⟨100, none⟩ ∧ (∃ q, q ≠ exA ∧ (hold h).live q = some ⟨100, some 64⟩ ∧ Usable (exRo false true) s.σ q 120) ∧ s.phase 1 = some none ∧
    (∃ c x, s.run 4 = some (c, .ret x) ∧ x.toNat = exB) ∧ s.σ.vm.mem exA = 7#8 ∧ s.σ.vm.mem (exA + 104) = 9#8 := by
  obtain ⟨h, s, h1, h2⟩ := ex_wild (stats := false) (sealed := true) (calm := false) (exWild.take 18)
    (fun h s => decide ((hold h).live exA = some ⟨100, none⟩) && decide ((hold h).live 8383776165888 = some ⟨100, some 64⟩) &&
      decide (usableB (exRo false true) s.σ 8383776165888 = some 120) &&
      decide (s.phase 1 = some none) && decide (s.phase 4 = some (some exB)) && decide (s.σ.vm.mem exA = 7#8) && decide (s.σ.vm.mem (exA + 104) = 9#8)) (by decide +kernel)
  simp only [Bool.and_eq_true, decide_eq_true_eq] at h2
  obtain ⟨⟨⟨⟨⟨⟨k1, k2⟩, k3⟩, k4⟩, k5⟩, k6⟩, k7⟩ := h2
  exact ⟨h, s, h1, k1, ⟨_, by decide, k2, usableB_usable k3⟩, k4, CSys.phase_ret k5, k6, k7⟩

end HM
