import Verif.New
import Verif.Props.Blocks
import Verif.Props.Free
import Verif.Props.Sizes
/-
C40: the C++ operators.
-/
namespace HM

theorem handle_spec (c : Call) (nothrow : Bool) (l : List (Option Handler × Nat)) :
    (∀ p, (handleOutOfMemory c nothrow l).1 = some (.ptr p) → (p ≠ 0 ∧ (handleOutOfMemory c nothrow l).2.getLast? = some (.call c p)) ∨
      (p = 0 ∧ nothrow = true)) ∧
    ((handleOutOfMemory c nothrow l).1 = some .badAlloc → nothrow = false) ∧
    ((handleOutOfMemory c nothrow l).1 ≠ some .terminate) ∧
    ((handleOutOfMemory c nothrow l).1 = some .other → (handleOutOfMemory c nothrow l).2.getLast? = some (.handler .throwsOther)) ∧
    (∀ c' p, NewEv.call c' p ∈ (handleOutOfMemory c nothrow l).2 → c' = c) := by
  induction l with
  | nil => simp [handleOutOfMemory]
  | cons x l ih =>
    obtain ⟨hd, p⟩ := x
    cases hd with
    | none => cases nothrow <;> simp [handleOutOfMemory]
    | some hd =>
      cases hd with
      | throwsBadAlloc => cases nothrow <;> simp [handleOutOfMemory]
      | throwsOther => cases nothrow <;> simp [handleOutOfMemory]
      | returns =>
        unfold handleOutOfMemory
        by_cases k : p = 0
        · rw [if_pos k]
          obtain ⟨h1, h2, h3, h4, h5⟩ := ih
          refine ⟨fun q e => ?_, h2, h3, fun e => ?_, fun c' q hq => ?_⟩
          · rcases h1 q e with ⟨a, b⟩ | h
            · refine Or.inl ⟨a, ?_⟩
              simp only
              rw [List.getLast?_cons, List.getLast?_cons, b]; rfl
            · exact Or.inr h
          · have := h4 e
            simp only
            rw [List.getLast?_cons, List.getLast?_cons, this]; rfl
          · simp only [List.mem_cons, reduceCtorEq, false_or, NewEv.call.injEq] at hq
            rcases hq with hq | hq
            · exact hq.1
            · exact h5 c' q hq
        · rw [if_neg k]
          simp [k]

theorem newImpl_spec (c : Call) (nothrow : Bool) (e : NewEnv) :
    (∀ p, (newImpl c nothrow e).1 = some (.ptr p) → (p ≠ 0 ∧ (newImpl c nothrow e).2.getLast? = some (.call c p)) ∨ (p = 0 ∧ nothrow = true)) ∧
    ((newImpl c nothrow e).1 = some .badAlloc → nothrow = false) ∧
    ((newImpl c nothrow e).1 ≠ some .terminate) ∧
    ((newImpl c nothrow e).1 = some .other → (newImpl c nothrow e).2.getLast? = some (.handler .throwsOther)) ∧
    (∀ c' p, NewEv.call c' p ∈ (newImpl c nothrow e).2 → c' = c) := by
  unfold newImpl
  by_cases k : e.first ≠ 0
  · rw [if_pos k]
    simp only [Option.some.injEq, NewRes.ptr.injEq, reduceCtorEq, List.mem_singleton, NewEv.call.injEq]
    refine ⟨?_, by simp, by simp, by simp, fun c' p h => h.1⟩
    rintro p rfl; exact Or.inl ⟨k, rfl⟩
  · rw [if_neg k]
    obtain ⟨h1, h2, h3, h4, h5⟩ := handle_spec c nothrow e.later
    refine ⟨fun q e1 => ?_, h2, h3, fun e1 => ?_, fun c' q hq => ?_⟩
    · rcases h1 q e1 with ⟨a, b⟩ | h
      · refine Or.inl ⟨a, ?_⟩
        simp only
        rw [List.getLast?_cons, b]; rfl
      · exact Or.inr h
    · simp only
      rw [List.getLast?_cons, h4 e1]; rfl
    · simp only [List.mem_cons, NewEv.call.injEq] at hq
      rcases hq with hq | hq
      · exact hq.1
      · exact h5 c' q hq

/-- C40. Operator new never returns null, and what it returns is what the allocator returned last, when asked for the size
and the alignment given to the operator; otherwise it throws `bad_alloc` or lets an exception of the handler propagate. -/
theorem c40_new (o : NewOp) (ho : o.nothrow = false) (e : NewEnv) :
    match (o.run e).1 with
    | none => True
    | some (.ptr p) => p ≠ 0 ∧ (o.run e).2.getLast? = some (.call o.call p)
    | some .badAlloc => True
    | some .other => (o.run e).2.getLast? = some (.handler .throwsOther)
    | some .terminate => False := by
  obtain ⟨h1, h2, h3, h4, _⟩ := newImpl_spec o.call o.nothrow e
  unfold NewOp.run
  rcases e1 : (newImpl o.call o.nothrow e).1 with _ | x
  · simp [e1]
  · cases x with
    | ptr p =>
      rcases h1 p e1 with ⟨a, b⟩ | ⟨_, b⟩
      · simp only [e1]; exact ⟨a, b⟩
      · rw [ho] at b; cases b
    | badAlloc => simp only [e1]; rw [if_neg (by rw [ho]; simp)]; trivial
    | other => simp only [e1]; rw [if_neg (by rw [ho]; simp)]; exact h4 e1
    | terminate => exact absurd e1 h3

/-- C40. Nothrow new never throws: it returns null or what the allocator returned last. Only if the handler throws something
other than `bad_alloc`, the program is terminated. -/
theorem c40_nothrow (o : NewOp) (ho : o.nothrow = true) (e : NewEnv) :
    match (o.run e).1 with
    | none => True
    | some (.ptr p) => p = 0 ∨ (o.run e).2.getLast? = some (.call o.call p)
    | some .badAlloc => False
    | some .other => False
    | some .terminate => (o.run e).2.getLast? = some (.handler .throwsOther) := by
  obtain ⟨h1, h2, h3, h4, _⟩ := newImpl_spec o.call o.nothrow e
  unfold NewOp.run
  rcases e1 : (newImpl o.call o.nothrow e).1 with _ | x
  · simp [e1]
  · cases x with
    | ptr p =>
      simp only [e1]
      rcases h1 p e1 with ⟨a, b⟩ | ⟨b, _⟩
      · exact Or.inr b
      · exact Or.inl b
    | badAlloc => have := h2 e1; rw [ho] at this; cases this
    | other => simp only [e1]; rw [if_pos ho]; exact h4 e1
    | terminate => exact absurd e1 h3

/-- C40. All attempts of an operator ask the allocator for the size and the alignment given to the operator. -/
theorem c40_attempts (o : NewOp) (e : NewEnv) (c : Call) (p : Nat) (h : NewEv.call c p ∈ (o.run e).2) :
    c = match o.align with | none => .malloc o.size | some al => .alignedAlloc al o.size := by
  have h5 := (newImpl_spec o.call o.nothrow e).2.2.2.2 c p
  unfold NewOp.run at h
  simp only at h
  split at h <;> exact h5 h

/-- What decides how an operator ends when memory is short: a handler that returns, after which the allocator
succeeds; no handler; or a handler that throws. -/
def Stops : Option Handler × Nat → Prop
  | (some .returns, p) => p ≠ 0
  | _ => True

/-- C40. If memory is available, operator new returns it and calls no handler. If it is short, the handler is called again
and again, as long as it returns and the allocator still fails; the first thing to happen otherwise decides: the operator
returns the block, or, if no handler is installed or it throws `bad_alloc`, throws `bad_alloc` (returns null, with
`std::nothrow`), or another exception of the handler propagates (terminates the program, with `std::nothrow`). -/
theorem c40_retry (o : NewOp) (later pre rest : List (Option Handler × Nat)) (x : Option Handler × Nat) (hpre : ∀ y ∈ pre, y = (some .returns, 0)) (hx : Stops x) :
    (∀ p, p ≠ 0 → o.run ⟨p, later⟩ = (some (.ptr p), [.call o.call p])) ∧
    (o.run ⟨0, pre ++ x :: rest⟩).1 = some (match x with
      | (some .returns, p) => .ptr p
      | (some .throwsOther, _) => if o.nothrow then .terminate else .other
      | _ => if o.nothrow then .ptr 0 else .badAlloc) ∧
    (o.run ⟨0, pre⟩).1 = none ∧
    ((o.run ⟨0, pre⟩).2.filter fun e => match e with | .handler _ => true | _ => false).length = pre.length := by
  have h1 : ∀ c n, (handleOutOfMemory c n (pre ++ x :: rest)).1 = some (match x with
      | (some .returns, p) => .ptr p
      | (some .throwsOther, _) => .other
      | _ => if n then .ptr 0 else .badAlloc) := by
    intro c n
    induction pre with
    | nil =>
      obtain ⟨hd, p⟩ := x
      cases hd with
      | none => rfl
      | some hd =>
        cases hd with
        | returns =>
          rw [List.nil_append, handleOutOfMemory]
          rw [if_neg (show p ≠ 0 from hx)]
        | throwsBadAlloc => rfl
        | throwsOther => rfl
    | cons y pre ih =>
      have := hpre y (by simp)
      subst this
      rw [List.cons_append, handleOutOfMemory, if_pos rfl]
      exact ih fun z hz => hpre z (by simp [hz])
  have h2 : ∀ c n, (handleOutOfMemory c n pre).1 = none ∧ ((handleOutOfMemory c n pre).2.filter fun e => match e with | .handler _ => true | _ => false).length = pre.length := by
    intro c n
    induction pre with
    | nil => exact ⟨rfl, rfl⟩
    | cons y pre ih =>
      have := hpre y (by simp)
      subst this
      obtain ⟨a, b⟩ := ih (fun z hz => hpre z (by simp [hz])) (fun c n => by
        have := h1 c n
        rw [List.cons_append, handleOutOfMemory, if_pos rfl] at this
        exact this)
      rw [handleOutOfMemory, if_pos rfl]
      refine ⟨a, ?_⟩
      simp only [List.filter_cons, if_true, Bool.false_eq_true, if_false, List.length_cons, b]
  have e0 : ∀ l, newImpl o.call o.nothrow ⟨0, l⟩ = ((handleOutOfMemory o.call o.nothrow l).1, .call o.call 0 :: (handleOutOfMemory o.call o.nothrow l).2) := fun l => rfl
  refine ⟨fun p hp => ?_, ?_, ?_, ?_⟩
  · unfold NewOp.run newImpl
    simp only [if_pos hp]
  · unfold NewOp.run
    rw [e0]
    simp only [h1]
    obtain ⟨hd, p⟩ := x
    cases hd with
    | none => cases o.nothrow <;> rfl
    | some hd => cases hd <;> cases o.nothrow <;> rfl
  · unfold NewOp.run
    rw [e0]
    simp only [(h2 _ _).1]
  · unfold NewOp.run
    rw [e0]
    simp only [(h2 _ _).1]
    exact (h2 _ _).2

/-- The hypotheses are met: a handler that returns twice without effect and then makes room; without a handler; a handler
that throws. -/
example : ((NewOp.mk 100 none false).run ⟨0, [(some .returns, 0), (some .returns, 0), (some .returns, 4096)]⟩).1 = some (.ptr 4096) ∧
    ((NewOp.mk 100 (some 64) false).run ⟨0, [(some .returns, 0), (none, 0)]⟩).1 = some .badAlloc ∧
    ((NewOp.mk 100 none true).run ⟨0, [(some .returns, 0), (none, 0)]⟩).1 = some (.ptr 0) ∧
    ((NewOp.mk 100 none true).run ⟨0, [(some .throwsOther, 0)]⟩).1 = some .terminate := ⟨rfl, rfl, rfl, rfl⟩

variable {g : Cfg} {ro : Ro} {ar : Nat → Nat} {calm : Bool} {D : Client} {h : List Ev} {s : Sys}

/-- C40. The block that operator new returns is as large and as aligned as asked for, all its bytes can be used, and
it was not live before: `s` is the state before the last attempt, after whatever the handler did. -/
theorem c40_block (hg : Good g ar) (o : NewOp) (r : Reach g ro ar calm D h s) {t p : Nat} {chs : Nat → Choice} {s' : Sys} (hok : o.call.Ok)
    (he : ∀ n, Env calm (chs n)) (hc : s.call ro ar t o.call chs = .ok (s', .ptr p)) (hp : p ≠ 0) :
    (∃ u, Usable ro s'.σ p u ∧ o.size ≤ u ∧ ∀ y, p ≤ y → y < p + u → s'.access y) ∧ live h p = none ∧
      live (.call t o.call (.ptr p) :: h) p = some ⟨o.size, o.align⟩ := by
  have hr : o.call.request = some ⟨o.size, o.align⟩ := by
    unfold NewOp.call
    cases o.align <;> rfl
  have hb : (Ret.ptr p).block = some p := if_neg hp
  refine ⟨c01_new_block hg r hok he hc hr hb, c02_new_block hg r hok he hc hr hb, ?_⟩
  show liveStep _ _ _ = _
  rw [liveStep_request hr hb, if_pos rfl]

/-- C40. A live block that was not allocated with an alignment can be released by any operator delete: without a size, with
the size it was allocated with, and with any alignment. (With an alignment at the allocation, `c12_aligned_sized_abort`
shows that a sized delete may abort.) -/
theorem c40_delete (hg : Good g ar) (r : Reach g ro ar calm (goodClient ro) h s) {t p n : Nat} {chs : Nat → Choice} (he : ∀ n, Env calm (chs n))
    (hsys : OnlyEnomem chs) (hp : p < W64) (hn : n ≤ 2 ^ 63) (hl : live h p = some ⟨n, none⟩) (o : DeleteOp) (h1 : o.ptr = p)
    (h2 : o.size = none ∨ o.size = some n) : ∃ s' x, s.call ro ar t o.call chs = .ok (s', x) := by
  obtain ⟨q, sz, al⟩ := o
  obtain rfl : q = p := h1
  rcases h2 with rfl | rfl
  · exact c05_no_abort hg r (c := .free q) hp he hsys (Or.inr (by rw [hl]; rfl))
  · rcases c12_sized_free_partial hg r he hsys hp hn hl with ⟨_, s', h⟩ | ⟨h, _⟩
    · exact ⟨s', _, h⟩
    · exact absurd rfl h

/-- The hypotheses are met. -/
example : ∃ h s, Reach (exCfg false false) (exRo false false) (fun t => t % 4) false (goodClient (exRo false false)) h s ∧ live h exA = some ⟨100, none⟩ := by
  obtain ⟨h, s, h1, h2⟩ := ex_good (stats := false) (sealed := false) (calm := false) [.call 0 (NewOp.mk 100 none false).call 0]
    (fun h _ => decide (live h exA = some ⟨100, none⟩)) (by decide +kernel)
  exact ⟨h, s, h1, of_decide_eq_true h2⟩

end HM
