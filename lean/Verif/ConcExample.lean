import Verif.ConcInv
import Verif.Example
/-
Running interleaved calls of several threads, for the examples.
-/
namespace HM

/-- What happens in an example: a thread begins a call; a thread performs `n` actions of its call (new mappings are placed
at `a` and nothing fails); a call returns; a store; a fork; someone
else than the allocator gives a page another protection and fills it with `v`. -/
inductive ExC where
  | inv (t : Nat) (c : Call) (b : Nat)
  | go (t n a : Nat)
  | ret (t : Nat)
  | store (x : Nat) (v : BitVec 8) (p : Nat)
  | fork (t : Nat)
  | other (pg : Nat) (pr : Prot) (v : BitVec 8)

/-- The condition `Lends`, computed. -/
def lendsB (ro : Ro) (H : Hold) (σ : St) (b : Nat) : Call → Bool
  | .free p => b == p && (p == 0 || (H.live p).isSome)
  | .freeSized p n => b == p && (p == 0 || decide (H.live p = some ⟨n, none⟩))
  | .realloc p _ => b == p && (p == 0 || (H.live p).any fun i => i.align.isNone)
  | .usableSize p => b == p && (p == 0 || (H.live p).isSome)
  | .objectSize x => (H.live b).isSome && (usableB ro σ b).any fun u => decide (b ≤ x) && decide (x < b + u)
  | _ => b == 0

theorem lendsB_lends {ro : Ro} {H : Hold} {σ : St} {b : Nat} {c : Call} (e : lendsB ro H σ b c = true) : Lends ro H σ b c := by
  cases c with
  | free p => simpa [lendsB, Lends] using e
  | usableSize p => simpa [lendsB, Lends] using e
  | freeSized p n => simpa [lendsB, Lends] using e
  | realloc p n =>
    simp only [lendsB, Bool.and_eq_true, beq_iff_eq, Bool.or_eq_true, Option.any_eq_true] at e
    refine ⟨e.1, e.2.imp id fun ⟨i, h1, h2⟩ => ⟨i, h1, fun ⟨⟨al, h3, _⟩, _⟩ => ?_⟩⟩
    rw [h3] at h2; cases h2
  | objectSize x =>
    simp only [lendsB, Bool.and_eq_true, Option.any_eq_true, decide_eq_true_eq] at e
    obtain ⟨h1, u, h2, h3⟩ := e
    exact Or.inr ⟨h1, u, usableB_usable h2, h3⟩
  | _ => simpa [lendsB, Lends] using e

/-- The next action of thread `t`. -/
def CSys.act (s : CSys) (t : Nat) (ch : Choice) : Option CSys :=
  match s.run t with
  | some (c, .act f k) =>
      match f ch s.σ (s.tl t) with
      | .ok (σ', tl', b) => some ⟨σ', upd s.tl t tl', upd s.run t (some (c, k b)), s.start⟩
      | _ => none
  | _ => none

/-- `n` actions of thread `t`, or as many as remain. -/
def CSys.acts (s : CSys) (t : Nat) (ch : Choice) : Nat → Option CSys
  | 0 => some s
  | n + 1 =>
      match s.run t with
      | some (_, .ret _) => some s
      | _ => (s.act t ch).bind fun s' => s'.acts t ch n

def ExC.run (ro : Ro) (ar : Nat → Nat) (h : List CEv) (s : CSys) : ExC → Option (List CEv × CSys)
  | .inv t c b =>
      if (s.run t).isNone && c.okB && lendsB ro (hold h) s.σ b c then
        some (.inv t c b :: h, ⟨s.σ, s.tl, upd s.run t (some (c, c.prog ro (ar t))), upd s.start t s.σ⟩)
      else none
  | .go t n a => (s.acts t (exAt a) n).map fun s' => (h, s')
  | .ret t =>
      match s.run t with
      | some (c, .ret x) => some (.ret t c x :: h, ⟨s.σ, s.tl, upd s.run t none, s.start⟩)
      | _ => none
  | .store x v p =>
      if ((hold h).live p).isSome && (usableB ro s.σ p).any fun u => decide (p ≤ x) && decide (x < p + u) then
        some (.store x v :: h, ⟨{ s.σ with vm := s.σ.vm.appStore x v }, s.tl, s.run, s.start⟩)
      else none
  | .fork t =>
      if (s.run t).isNone then
        some (.fork t :: h, ⟨s.σ, fun u => if u = t then s.tl t else ⟨0, false⟩, fun _ => none, s.start⟩)
      else none
  | .other pg pr v =>
      if cforeign h pg || decide (s.σ.vm.prot pg = .unmapped) then
        some (.foreign pg (pr != .unmapped) :: h, ⟨{ s.σ with vm := s.σ.vm.foreign pg pr fun _ => v }, s.tl, s.run, s.start⟩)
      else none

def runC (ro : Ro) (ar : Nat → Nat) : List ExC → List CEv → CSys → Option (List CEv × CSys)
  | [], h, s => some (h, s)
  | a :: as, h, s => (a.run ro ar h s).bind fun x => runC ro ar as x.1 x.2

section
variable {g : Cfg} {ro : Ro} {ar : Nat → Nat} {calm : Bool}

theorem exAt_cenv (calm : Bool) (a : Nat) (c : Call) : CEnv calm c (exAt a) := ⟨exAt_env calm a, by simp [exAt, Choice.quiet]⟩

theorem CReach.act {h : List CEv} {s s' : CSys} (r : CReach g ro ar calm h s) {t : Nat} {ch : Choice} (he : ∀ c, CEnv calm c ch)
    (e : s.act t ch = some s') : CReach g ro ar calm h s' := by
  unfold CSys.act at e
  cases hr : s.run t with
  | none => rw [hr] at e; cases e
  | some x =>
    obtain ⟨c, P⟩ := x
    rw [hr] at e
    cases P with
    | ret y => cases e
    | act f k =>
      simp only at e
      cases hf : f ch s.σ (s.tl t) with
      | ok y =>
        obtain ⟨σ', tl', b⟩ := y
        rw [hf] at e
        cases e
        exact r.step t hr (he c) hf
      | fatal m => rw [hf] at e; cases e
      | segv => rw [hf] at e; cases e
      | ub m => rw [hf] at e; cases e
      | hang => rw [hf] at e; cases e

theorem CReach.acts {h : List CEv} {s s' : CSys} (r : CReach g ro ar calm h s) {t n : Nat} {ch : Choice} (he : ∀ c, CEnv calm c ch)
    (e : s.acts t ch n = some s') : CReach g ro ar calm h s' := by
  induction n generalizing s with
  | zero => cases e; exact r
  | succ n ih =>
    unfold CSys.acts at e
    split at e
    · cases e; exact r
    · obtain ⟨s1, h1, h2⟩ := Option.bind_eq_some_iff.mp e
      exact ih (r.act he h1) h2

theorem ExC.run_reach {a : ExC} {h h' : List CEv} {s s' : CSys} (r : CReach g ro ar calm h s) (e : a.run ro ar h s = some (h', s')) :
    CReach g ro ar calm h' s' := by
  cases a with
  | inv t c b =>
    simp only [ExC.run] at e
    split at e
    · rename_i k
      simp only [Bool.and_eq_true, Option.isNone_iff_eq_none] at k
      cases e
      exact r.invoke t c b k.1.1 (Call.okB_ok k.1.2) (lendsB_lends k.2)
    · cases e
  | go t n a =>
    obtain ⟨s1, h1, h2⟩ := Option.map_eq_some_iff.mp e
    cases h2
    exact r.acts (exAt_cenv calm a) h1
  | ret t =>
    simp only [ExC.run] at e
    split at e
    · rename_i c x k
      cases e
      exact r.ret t k
    · cases e
  | store x v p =>
    simp only [ExC.run] at e
    split at e
    · rename_i k
      simp only [Bool.and_eq_true, Option.any_eq_true, decide_eq_true_eq] at k
      obtain ⟨k1, u, k2, k3, k4⟩ := k
      cases e
      exact r.store x v k1 (usableB_usable k2) k3 k4
    · cases e
  | fork t =>
    simp only [ExC.run] at e
    split at e
    · rename_i k
      rw [Option.isNone_iff_eq_none] at k
      cases e
      exact r.fork t k
    · cases e
  | other pg pr v =>
    simp only [ExC.run] at e
    split at e
    · rename_i k
      rw [Bool.or_eq_true, decide_eq_true_eq] at k
      cases e
      exact r.other pg pr _ k
    · cases e

theorem runC_reach {as : List ExC} {h h' : List CEv} {s s' : CSys} (r : CReach g ro ar calm h s) (e : runC ro ar as h s = some (h', s')) :
    CReach g ro ar calm h' s' := by
  induction as generalizing h s with
  | nil => cases e; exact r
  | cons a as ih =>
    obtain ⟨⟨h1, s1⟩, k1, k2⟩ := Option.bind_eq_some_iff.mp e
    exact ih (a.run_reach r k1) k2

end

/-- The state after `as`, from the initial state of the example. -/
def exRunC (stats sealed : Bool) (as : List ExC) : Option (List CEv × CSys) :=
  runC (exRo stats sealed) (fun t => t % 4) as [] ⟨exSt, fun _ => ⟨0, false⟩, fun _ => none, fun _ => exSt⟩

/-- An execution: what `P` computes from its last state is true. -/
theorem ex_conc {stats sealed calm : Bool} (as : List ExC) (P : List CEv → CSys → Bool)
    (e : ((exRunC stats sealed as).any fun x => P x.1 x.2) = true) :
    ∃ h s, CReach (exCfg stats sealed) (exRo stats sealed) (fun t => t % 4) calm h s ∧ P h s = true := by
  rw [Option.any_eq_true] at e
  obtain ⟨⟨h, s⟩, h1, h2⟩ := e
  exact ⟨h, s, runC_reach (.init (exInit stats sealed) fun _ => rfl) h1, h2⟩

end HM
