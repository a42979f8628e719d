import Verif.FineInv
import Verif.Props.Threads
/-
C51. Calls whose lock sections overlap in time. In `FReach` (Fine.lean) a section takes its lock, runs for a while, in which
the data it may write can hold anything and the others go on, and releases the lock. The theorems say that this cannot be
told from the machine of `CReach`, in which sections are executed at once: it has the same histories of calls and results
(`c51_histories`), the state that it would have without the unfinished sections is one of that machine (`c51_atomic`), and the
application finds in its blocks what that state has there (`c51_contents`). So the theorems about `CReach` (C36, C38, C50)
hold for overlapping sections as well; `c51_no_abort_section`, `c51_no_abort_plain`, `c51_disjoint` and `c51_calloc` spell
this out for some of them.
-/
namespace HM

section
variable {g : Cfg} {ro : Ro} {ar : Nat → Nat} {calm : Bool} {h : List CEv} {s : FineSys}

/-- C51. Whatever happens with overlapping sections can also happen with sections that are executed at once, with the same
calls, results, stores and forks in the same order; and the settled state is that of the latter execution. -/
theorem c51_atomic (hg : Good g ar) (r : FReach g ro ar calm h s) :
    ∃ v start, Settled ro s v ∧ CReach g ro ar calm h ⟨v, s.tl, s.run, start⟩ := by
  obtain ⟨v, start, q, ok⟩ := r.atomic hg
  exact ⟨v, start, ok.settled, q⟩

/-- There is only one settled state. -/
theorem c51_settled_unique (hg : Good g ar) (r : FReach g ro ar calm h s) {v v' : St} (hv : Settled ro s v) (hv' : Settled ro s v') : v = v' := by
  obtain ⟨u, start, q, ok⟩ := r.atomic hg
  exact (ok.uniq hv).trans (ok.uniq hv').symm

/-- When no section runs, the settled state is the state. -/
theorem settled_idle (hs : ∀ t, s.sec t = none) {v : St} (hv : Settled ro s v) : v = s.σ :=
  St.ext_agree fun c => hv.2 c fun t x hx => by rw [hs t] at hx; cases hx

/-- Conversely, sections can be executed at once. -/
theorem CReach.fine (hg : Good g ar) {s : CSys} (r : CReach g ro ar calm h s) : FReach g ro ar calm h ⟨s.σ, s.tl, s.run, fun _ => none⟩ := by
  have hidle : ∀ {σ : St} {tl : Nat → Tl} {run : Nat → Option (Call × Prog Ret)}, Settled ro ⟨σ, tl, run, fun _ => none⟩ σ :=
    ⟨fun _ _ _ e => (by cases e), fun _ _ => St.agree.rfl⟩
  have hm : ∀ {σ σ' : St} {tl : Nat → Tl} {run : Nat → Option (Call × Prog Ret)}, FineSys.meanwhile ⟨σ, tl, run, fun _ => none⟩ σ' = fun _ => none := rfl
  induction r with
  | init hi htl => exact .init hi htl
  | invoke r t c b hi hok hl ih => exact ih.invoke t c b hi hok hidle hl
  | @step h s r t c β l f k hc ch he σ' tl' b hf ih =>
    cases l with
    | none => exact ih.plain t hc he hf
    | some x =>
      obtain ⟨w, _, i⟩ := r.inv hg
      have a := ih.acquire t hc rfl (lock_exists i hc hf) fun u y hy => by cases hy
      have hsec : upd (fun _ => none) t (some (⟨x, s.σ, []⟩ : FSec)) t = some ⟨x, s.σ, []⟩ := if_pos rfl
      have := a.release t hc hsec (v := s.σ) (fun c => ⟨s.σ, List.mem_cons_self, St.agree.rfl⟩) he hf (σ' := σ')
        (St.ext_agree fun c => by
          by_cases k : (⟨x, s.σ, []⟩ : FSec).upsets ro c ∨ ¬ σ'.agree s.σ c
          · exact (St.patch_in (N := fun c => (⟨x, s.σ, []⟩ : FSec).upsets ro c ∨ ¬ σ'.agree s.σ c) k).symm
          · have e := St.patch_out (σ := s.σ) (ν := σ') (N := fun c => (⟨x, s.σ, []⟩ : FSec).upsets ro c ∨ ¬ σ'.agree s.σ c) k
            rw [not_or, not_not] at k
            exact k.2.trans e.symm)
      have e : upd (FineSys.meanwhile ⟨s.σ, s.tl, s.run, upd (fun _ => none) t (some (⟨x, s.σ, []⟩ : FSec))⟩ σ') t none = fun _ => none := by
        funext u
        unfold upd FineSys.meanwhile
        by_cases e : u = t
        · rw [if_pos e]
        · rw [if_neg e]; simp [e]
      rwa [e] at this
  | ret r t hc ih => exact ih.ret t hc
  | store r x v hp hu h1 h2 ih => exact ih.store x v hp hidle hu h1 h2 rfl
  | errno r t e hi ih => exact ih.errno t e hi
  | fork r t hi ih => exact ih.fork t hi fun _ => rfl
  | other r pg pr data hp ih => exact ih.other pg pr data hp rfl

/-- C51. The histories that are possible with overlapping sections are exactly those that are possible with sections executed
at once. -/
theorem c51_histories (hg : Good g ar) : (∃ s, FReach g ro ar calm h s) ↔ ∃ s, CReach g ro ar calm h s := by
  constructor
  · rintro ⟨s, r⟩
    obtain ⟨v, start, _, q⟩ := c51_atomic hg r
    exact ⟨_, q⟩
  · rintro ⟨s, r⟩
    exact ⟨_, r.fine hg⟩

/-- C51. A section that takes place while others run, and reads each part of the state at another moment, has the outcome
and the result that it would have in the settled state; this includes failures. -/
theorem c51_section (hg : Good g ar) (r : FReach g ro ar calm h s) {v : St} (hv : Settled ro s v) {t : Nat} {c : Call} {β : Type} {l : Sect}
    {f : Choice → St → Tl → Res (St × Tl × β)} {k : β → Prog Ret} (hc : s.run t = some (c, .act (l := some l) f k))
    {x : FSec} (hx : s.sec t = some x) {u : St} (hu : x.sees u) {ch : Choice} (he : CEnv calm c ch) :
    Res.Rel (fun r r' => r'.2 = r.2) (f ch v (s.tl t)) (f ch u (s.tl t)) := by
  obtain ⟨v', start, q, ok⟩ := r.atomic hg
  obtain rfl := ok.uniq hv
  obtain ⟨w, _, i⟩ := q.inv hg
  exact (ok.section i hc hx hu he).2.2.1.mono fun a b e => by rw [e]

/-- C51. The same for an action without a lock. -/
theorem c51_plain (hg : Good g ar) (r : FReach g ro ar calm h s) {v : St} (hv : Settled ro s v) {t : Nat} {c : Call} {β : Type}
    {f : Choice → St → Tl → Res (St × Tl × β)} {k : β → Prog Ret} (hc : s.run t = some (c, .act (l := none) f k)) {ch : Choice} (he : CEnv calm c ch) :
    Res.Rel (fun r r' => r'.2 = r.2) (f ch v (s.tl t)) (f ch s.σ (s.tl t)) := by
  obtain ⟨hro, _⟩ := r.roOk hg
  obtain ⟨v', start, q, ok⟩ := r.atomic hg
  obtain rfl := ok.uniq hv
  obtain ⟨w, _, i⟩ := q.inv hg
  exact (ok.plain hro i hc he).1.mono fun a b e => by rw [e]

/-- C51. No section aborts or crashes, whatever it reads while others run, unless a system call fails with an error other
than ENOMEM. -/
theorem c51_no_abort_section (hg : Good g ar) (r : FReach g ro ar calm h s) {t : Nat} {c : Call} {β : Type} {l : Sect}
    {f : Choice → St → Tl → Res (St × Tl × β)} {k : β → Prog Ret} (hc : s.run t = some (c, .act (l := some l) f k))
    {x : FSec} (hx : s.sec t = some x) {u : St} (hu : x.sees u) {ch : Choice} (he : CEnv calm c ch) :
    match f ch u (s.tl t) with
    | .ok _ => True
    | .fatal _ => (∃ n, ch.sys n = .other) ∨ ch.growRemap = .other ∨ ch.trailUnmap = .other
    | _ => False := by
  obtain ⟨v, start, hv, q⟩ := c51_atomic hg r
  have h1 := c51_section hg r hv hc hx hu he
  have h2 := c36_no_abort_partial hg q hc he
  revert h1 h2
  simp only
  cases f ch v (s.tl t) <;> cases f ch u (s.tl t) <;> simp [Res.Rel]

/-- C51. The same for an action without a lock. -/
theorem c51_no_abort_plain (hg : Good g ar) (r : FReach g ro ar calm h s) {t : Nat} {c : Call} {β : Type}
    {f : Choice → St → Tl → Res (St × Tl × β)} {k : β → Prog Ret} (hc : s.run t = some (c, .act (l := none) f k)) {ch : Choice} (he : CEnv calm c ch) :
    match f ch s.σ (s.tl t) with
    | .ok _ => True
    | .fatal _ => (∃ n, ch.sys n = .other) ∨ ch.growRemap = .other ∨ ch.trailUnmap = .other
    | _ => False := by
  obtain ⟨v, start, hv, q⟩ := c51_atomic hg r
  have h1 := c51_plain hg r hv hc he
  have h2 := c36_no_abort_partial hg q hc he
  revert h1 h2
  simp only
  cases f ch v (s.tl t) <;> cases f ch s.σ (s.tl t) <;> simp [Res.Rel]

/-- C51. The lock that a thread needs for its next section exists; so the thread can take it unless another thread has it. -/
theorem c51_can_acquire (hg : Good g ar) (r : FReach g ro ar calm h s) {t : Nat} {c : Call} {β : Type} {x : Sect}
    {f : Choice → St → Tl → Res (St × Tl × β)} {k : β → Prog Ret} (hc : s.run t = some (c, .act (l := some x) f k)) (hs : s.sec t = none)
    (hl : ∀ u y, s.sec u = some y → ¬ y.sect.sameLock x) :
    FReach g ro ar calm h ⟨s.σ, s.tl, s.run, upd s.sec t (some ⟨x, s.σ, []⟩)⟩ := by
  refine r.acquire t hc hs ?_ hl
  obtain ⟨v, start, hv, q⟩ := c51_atomic hg r
  obtain ⟨w, _, i⟩ := q.inv hg
  have he : CEnv calm c (Choice.quiet) := ⟨⟨by simp [Choice.quiet], fun _ => by simp [Choice.quiet]⟩, by simp [Choice.quiet]⟩
  have h2 := c36_no_abort_partial hg q hc he
  revert h2
  cases e : f Choice.quiet v (s.tl t) with
  | ok y => exact fun _ => lock_exists i hc e
  | fatal m => simp [Choice.quiet, e]
  | segv => simp [e]
  | ub m => simp [e]
  | hang => simp [e]

/-- C51. While others are in the middle of sections, the application can access the bytes of its blocks and finds what the
settled state has there. -/
theorem c51_contents (hg : Good g ar) (r : FReach g ro ar calm h s) {v : St} (hv : Settled ro s v) {p u : Nat} (hp : ((hold h).live p).isSome)
    (hu : Usable ro v p u) (x : Nat) (h1 : p ≤ x) (h2 : x < p + u) : s.σ.vm.prot (x / 4096) = .rw ∧ s.σ.vm.mem x = v.vm.mem x := by
  obtain ⟨hro, _⟩ := r.roOk hg
  obtain ⟨v', start, q, ok⟩ := r.atomic hg
  obtain rfl := ok.uniq hv
  obtain ⟨w, _, i⟩ := q.inv hg
  have hσ : w.σ = v := i.σ
  have happ := (i.app p).mpr hp
  have hub : UserByte ro w p x := UsableIs.user' (app_eff i.inv happ) ((i.usable_iff hro hp).mp hu) (by unfold inRange; omega)
  have hun : ∀ t y, s.sec t = some y → ¬ y.sect.uses ro v (.mem x) ∧ ¬ y.sect.upsets ro v (.prot (x / PAGE)) := fun t y hy => by
    have := user_unused hro i.inv (ok.exist t y hy) (ok.frees i hy) (p := p) (by rw [happ]; simp) hub
    rwa [hσ] at this
  have e1 : v.vm.prot (x / PAGE) = s.σ.vm.prot (x / PAGE) := ok.quiet (c := .prot (x / PAGE)) fun t y hy => (hun t y hy).2
  have e2 : v.vm.mem x = s.σ.vm.mem x := ok.quiet (c := .mem x) fun t y hy k => (hun t y hy).1 k.1
  exact ⟨by rw [← e1, ← hσ]; exact hub.rw hro i.inv, e2.symm⟩

/-- C51. At every moment, in the middle of whatever sections, the bytes of two blocks of the application are distinct. -/
theorem c51_disjoint (hg : Good g ar) (r : FReach g ro ar calm h s) {w : St} (hw : Settled ro s w) {p q u v : Nat} (hne : p ≠ q) (hp : ((hold h).live p).isSome)
    (hq : ((hold h).live q).isSome) (hu : Usable ro w p u) (hv : Usable ro w q v) (x : Nat) :
    ¬ ((p ≤ x ∧ x < p + u) ∧ (q ≤ x ∧ x < q + v)) := by
  obtain ⟨w', start, k, c⟩ := c51_atomic hg r
  obtain rfl := c51_settled_unique hg r hw k
  exact c36_disjoint_partial hg c hne hp hq hu hv x

/-- C51. `calloc` returns a block with zeros, however its sections and those of others overlap. -/
theorem c51_calloc (hg : Good g ar) (r : FReach g ro ar calm h s) {t n k : Nat} {x : Ret} (hc : s.run t = some (.calloc n k, .ret x))
    {p : Nat} (hx : x.block = some p) (y : Nat) (h1 : p ≤ y) (h2 : y < p + n * k) : s.σ.vm.mem y = 0#8 := by
  obtain ⟨v, start, hv, q⟩ := c51_atomic hg r
  have hz := c36_calloc hg q hc hx y h1 h2
  have r' := r.ret t hc
  have q' := q.ret t hc
  have hl : ∃ i, (hold (.ret t (.calloc n k) x :: h)).live p = some i ∧ n * k ≤ i.size := by
    exact ⟨⟨n * k, none⟩, by simp [hold, Hold.step, Call.gives, Call.request, hx], Nat.le_refl _⟩
  obtain ⟨i, hl, hn⟩ := hl
  obtain ⟨⟨u, hu⟩, hz2⟩ := c36_usable_partial hg q' hl
  rw [(c51_contents hg r' (v := v) hv (by rw [hl]; rfl) hu y h1 (by have := (hz2 u hu).1; omega)).2]
  exact hz

end

/-! ### The hypotheses are met -/

/-- The section that is the next action of thread `t`. -/
def CSys.next (s : CSys) (t : Nat) : Option Sect :=
  match s.run t with
  | some (_, .act (l := l) _ _) => l
  | _ => none

theorem CSys.next_act {s : CSys} {t : Nat} {x : Sect} (e : s.next t = some x) : ∃ (c : Call) (β : Type) (f : Choice → St → Tl → Res (St × Tl × β)) (k : β → Prog Ret),
    s.run t = some (c, .act (l := some x) f k) := by
  unfold CSys.next at e
  cases h : s.run t with
  | none => rw [h] at e; cases e
  | some y =>
    obtain ⟨c, P⟩ := y
    rw [h] at e
    cases P with
    | ret r => cases e
    | act f k => cases (show _ = some x from e); exact ⟨c, _, f, k, rfl⟩

/-- Threads 0 and 1, which use different arenas, are in the middle of `malloc(100)`. Both have taken the lock of their class
(`s1`); the section of thread 0 makes a mess of its metadata (`s2`); meanwhile that of thread 1 finishes (`s3`). -/
theorem ex_overlap : ∃ h s1 s2 s3 x0 x1, FReach (exCfg false true) (exRo false true) (fun t => t % 4) false h s1 ∧
    s1.sec 0 = some x0 ∧ s1.sec 1 = some x1 ∧ x0.sect = .cls 0 7 none ∧ x1.sect = .cls 1 7 none ∧
    FReach (exCfg false true) (exRo false true) (fun t => t % 4) false h s2 ∧ s2.sec 0 = some x0 ∧ s2.σ.sc 0 7 ≠ s1.σ.sc 0 7 ∧
    FReach (exCfg false true) (exRo false true) (fun t => t % 4) false h s3 ∧ s3.sec 0 ≠ none ∧ s3.sec 1 = none ∧ s3.σ.sc 0 7 ≠ s1.σ.sc 0 7 := by
  have hg := exGood false true
  obtain ⟨h, s, r, e⟩ := ex_conc (stats := false) (sealed := true) (calm := false)
    [.inv 0 (.malloc 100) 0, .inv 1 (.malloc 100) 0, .go 0 1 0, .go 1 1 0]
    (fun _ s => decide (s.next 0 = some (.cls 0 7 none)) && decide (s.next 1 = some (.cls 1 7 none))) (by decide +kernel)
  simp only [Bool.and_eq_true, decide_eq_true_eq] at e
  obtain ⟨e0, e1⟩ := e
  obtain ⟨c0, β0, f0, k0, h0⟩ := CSys.next_act e0
  obtain ⟨c1, β1, f1, k1, h1⟩ := CSys.next_act e1
  have ra := c51_can_acquire hg (r.fine hg) h0 rfl fun u y hy => by cases hy
  have rb := c51_can_acquire hg ra (t := 1) h1 rfl fun u y hy => by
    by_cases e : u = 0
    · subst e; cases hy; simp [Sect.sameLock]
    · have : none = some y := (if_neg e).symm.trans hy
      cases this
  have hmess : ∃ σ' : St, σ'.sc 0 7 ≠ s.σ.sc 0 7 ∧ (∀ c, ¬ σ'.agree s.σ c → c = .sc 0 7) ∧ σ'.vm = s.σ.vm := by
    refine ⟨{ s.σ with sc := fun a c => if a = 0 ∧ c = 7 then { s.σ.sc 0 7 with nmalloc := (s.σ.sc 0 7).nmalloc + 1 } else s.σ.sc a c }, fun e => ?_, fun c hc => ?_, rfl⟩
    · have := congrArg SC.nmalloc e
      simp at this
    · cases c with
      | sc a c =>
        by_cases k : a = 0 ∧ c = 7
        · rw [k.1, k.2]
        · exact absurd (if_neg k) hc
      | regs => exact absurd ⟨rfl, rfl, rfl, rfl, rfl⟩ hc
      | prot pg => exact absurd rfl hc
      | mem x => exact absurd rfl hc
  obtain ⟨σ', hne, hd, hvm⟩ := hmess
  have rc := rb.write 0 (x := ⟨.cls 0 7 none, s.σ, []⟩) rfl σ' (fun c hc => by rw [hd c hc]; exact ⟨⟨rfl, rfl⟩, trivial⟩) fun pg hp => by rw [← hvm]; exact hp
  have hs : (FSec.meanwhile ⟨.cls 1 7 none, s.σ, []⟩ s.σ σ').sees (FSec.meanwhile ⟨.cls 1 7 none, s.σ, []⟩ s.σ σ').now :=
    fun c => ⟨_, List.mem_cons_self, St.agree.rfl⟩
  have hok := c51_no_abort_section hg rc (t := 1) h1 (x := FSec.meanwhile ⟨.cls 1 7 none, s.σ, []⟩ s.σ σ') rfl hs (exAt_cenv false 0 _)
  simp only at hok
  cases hf : f1 (exAt 0) (FSec.meanwhile ⟨.cls 1 7 none, s.σ, []⟩ s.σ σ').now (s.tl 1) with
  | ok y =>
    obtain ⟨τ, tl', b⟩ := y
    have rd := rc.release 1 h1 (x := FSec.meanwhile ⟨.cls 1 7 none, s.σ, []⟩ s.σ σ') rfl hs (exAt_cenv false 0 _) hf rfl
    obtain ⟨v, start, q, ok⟩ := rc.atomic hg
    obtain ⟨w, _, i⟩ := q.inv hg
    have hr := (ok.section i h1 (x := FSec.meanwhile ⟨.cls 1 7 none, s.σ, []⟩ s.σ σ') rfl hs (exAt_cenv false 0 _)).2.2.1
    rw [hf] at hr
    obtain ⟨z, _, hz⟩ := hr.ok_right
    have hz : τ = _ := congrArg Prod.fst hz
    refine ⟨h, _, _, _, _, _, rb, rfl, rfl, rfl, rfl, rc, rfl, hne, rd, by simp [upd, FineSys.meanwhile], by simp [upd], fun e => hne (Eq.trans (Eq.symm ?_) e)⟩
    refine (St.patch_out (c := .sc 0 7) (σ := σ') (ν := τ) (N := fun c => FSec.upsets (exRo false true) (FSec.meanwhile ⟨.cls 1 7 none, s.σ, []⟩ s.σ σ') c ∨
      ¬ τ.agree (FSec.meanwhile ⟨.cls 1 7 none, s.σ, []⟩ s.σ σ').now c) ?_ :)
    rintro (k | k)
    · exact absurd k.1.1 (by decide)
    · refine k ?_
      rw [hz]
      exact St.patch_in (c := .sc 0 7) (N := fun c => ¬ Sect.uses (exRo false true) v (.cls 1 7 none) c) fun k => absurd k.1 (by decide)
  | fatal m => rw [hf] at hok; rcases hok with ⟨n, e⟩ | e | e <;> cases e
  | segv => rw [hf] at hok; exact hok.elim
  | ub m => rw [hf] at hok; exact hok.elim
  | hang => rw [hf] at hok; exact hok.elim

end HM
