import Verif.Stubs
import Verif.Props.Boot
import Verif.Props.Blocks
import Verif.Props.Quarantine
import Verif.Props.Counts

/-! The remaining exported functions and the constructor (C65). -/

namespace HM

section
variable {g : Cfg} {ro : Ro} {ar : Nat → Nat} {calm : Bool} {D : Client} {h : List Ev} {s : Sys} {t : Nat} {chs : Nat → Choice}

/-- C65. `mallopt`, other than with `M_PURGE` on Android, changes nothing and returns 0; `malloc_set_state` changes nothing and
returns -2; `malloc_get_state` changes errno to ENOSYS and nothing else and returns NULL; `malloc_iterate` ends the process. -/
theorem c65_inert (android : Bool) (o : Option Ro) {param : Int} (hp : android = false ∨ param ≠ -101) (σ : St) (tl : Tl) :
    (hMallopt android o param).run chs σ tl = .ok (σ, tl, 0) ∧
    hMallocSetState.run chs σ tl = .ok (σ, tl, -2) ∧
    hMallocGetState.run chs σ tl = .ok (σ, { tl with errno := 38 }, 0) ∧
    ∃ m, hMallocIterate.run chs σ tl = .fatal m := by
  refine ⟨?_, rfl, rfl, _, rfl⟩
  unfold hMallopt
  rw [if_neg]
  · rfl
  · rintro ⟨h1, h2⟩
    rcases hp with hp | hp
    · rw [hp] at h1; cases h1
    · exact hp h2

theorem hMallopt_purge (ro : Ro) : hMallopt true (some ro) (-101) = (hTrim ro).bind fun _ => .ret 1 := by
  unfold hMallopt
  rw [if_pos ⟨rfl, rfl⟩]
  rfl

theorem Prog.run_bind_ret {α β : Type} (f : α → β) : ∀ (p : Prog α) (chs : Nat → Choice) (σ : St) (tl : Tl),
    (p.bind fun x => .ret (f x)).run chs σ tl =
      match p.run chs σ tl with
      | .ok (σ, tl, x) => .ok (σ, tl, f x)
      | .fatal m => .fatal m
      | .segv => .segv
      | .ub w => .ub w
      | .hang => .hang
  | .ret a, chs, σ, tl => rfl
  | .act g k, chs, σ, tl => by
      simp only [Prog.bind, Prog.run]
      cases g (chs 0) σ tl with
      | ok x => exact Prog.run_bind_ret f (k x.2.2) _ _ _
      | _ => rfl

/-- C65. On Android `mallopt(M_PURGE, …)` returns 1, makes no page accessible, and leaves every live block as it is. -/
theorem c65_purge (hg : Good g ar) (r : Reach g ro ar calm D h s) (he : ∀ n, Env calm (chs n)) {σ' : St} {tl' : Tl} {x : Int}
    (hc : (hMallopt true (some ro) (-101)).run chs s.σ (s.tl t) = .ok (σ', tl', x)) :
    x = 1 ∧ ∃ b s', s.call ro ar t .trim chs = .ok (s', .bool b) ∧ s'.σ = σ' ∧ (∀ y, s'.access y → s.access y) ∧
      ∀ p u, (live h p).isSome → Usable ro s.σ p u → Usable ro σ' p u ∧
        ∀ y, p ≤ y → y < p + u → s'.byte y = s.byte y ∧ s'.access y := by
  rw [hMallopt_purge, Prog.run_bind_ret (fun _ => (1 : Int))] at hc
  have e : s.call ro ar t .trim chs = match (hTrim ro).run chs s.σ (s.tl t) with
      | .ok (σ, tl, r) => .ok (⟨σ, fun u => if u = t then tl else s.tl u⟩, .bool r)
      | .fatal m => .fatal m
      | .segv => .segv
      | .ub w => .ub w
      | .hang => .hang := by
    unfold Sys.call
    rw [show Call.prog ro (ar t) .trim = (hTrim ro).bind fun x => .ret (.bool x) from rfl, Prog.run_bind_ret Ret.bool]
    cases (hTrim ro).run chs s.σ (s.tl t) <;> rfl
  cases hr : (hTrim ro).run chs s.σ (s.tl t) with
  | ok y =>
    obtain ⟨σ1, tl1, b⟩ := y
    rw [hr] at hc e
    cases hc
    obtain ⟨_, _, h2, _⟩ := c28_trim hg r he e
    refine ⟨rfl, b, _, e, rfl, h2, fun p u hp hu => ?_⟩
    obtain ⟨h3, _, h5⟩ := c43_others_untouched hg r (c := .trim) trivial he e hp (by rintro (hh | ⟨_, hh⟩ | ⟨_, hh⟩) <;> cases hh) hu
    exact ⟨h3, fun y q1 q2 => ⟨(h5 y q1 q2).1, (h5 y q1 q2).2.2⟩⟩
  | _ => rw [hr] at hc; cases hc

end

section
variable {g : Cfg} {l : Layout} {ar : Nat → Nat} {calm : Bool} {h : List Ev} {b b' : Boot} {t p : Nat} {chs chs' : Nat → Choice}

theorem live_lt {ro : Ro} {D : Client} {s : Sys} (hg : Good g ar) (r : Reach g ro ar calm D h s) (hl : (live h p).isSome) : p < W64 := by
  obtain ⟨hro, rfl⟩ := r.roOk hg
  obtain ⟨w, f, _⟩ := r.fits hg
  rcases (f.linked.inv.blk p).mp ((f.linked.blk p).mpr hl) with ⟨a, c, i, k, h1⟩ | ⟨n, gd, h1⟩
  · have := h1.inSlab hro f.linked.inv
    unfold Ro.inSlab at this
    simp only [Bool.and_eq_true, decide_eq_true_eq] at this
    have := hro.hi
    omega
  · have h2 : p + pageUp n + gd ≤ ADDR_END := (f.linked.inv.reg _ h1).hi
    omega

theorem live_malloc (h : List Ev) (t n p : Nat) (hp : p = 0 ∨ live h p = none) (h0 : live h 0 = none) :
    live (.call t (.free p) .unit :: .call t (.malloc n) (.ptr p) :: h) = live h := by
  funext x
  show (if x = p then none else liveStep (live h) (.call t (.malloc n) (.ptr p)) x) = _
  have e : liveStep (live h) (.call t (.malloc n) (.ptr p)) x = if p = 0 then live h x else if x = p then some ⟨n, none⟩ else live h x := by
    by_cases e : p = 0
    · rw [if_pos e, e]; rfl
    · rw [if_neg e, liveStep_request (c := .malloc n) (x := .ptr p) (p := p) (i := ⟨n, none⟩) rfl (if_neg e)]
  rw [e]
  by_cases hx : x = p
  · rw [if_pos hx, hx]
    rcases hp with rfl | hp
    · exact h0.symm
    · exact hp.symm
  · rw [if_neg hx]
    split <;> rfl

/-- C65. The constructor, run in any state that a program without memory errors can reach from the start of the process:
when it returns, the allocator is initialised, and the live blocks are those that were live before. -/
theorem c65_early_init (hg : Good g ar) (r : BReach g l ar calm goodBoot h b) (he : ∀ n, Env calm (chs n)) (he' : ∀ n, Env calm (chs' n))
    (hc : b.earlyInit g l ar t chs chs' = .ok (b', p)) :
    b'.ro.isSome ∧ ∃ h', BReach g l ar calm goodBoot h' b' ∧ live h' = live h := by
  unfold Boot.earlyInit at hc
  split at hc <;> try cases hc
  rename_i b1 q h1
  split at hc <;> try cases hc
  rename_i b2 x h2
  have n16 : (Call.malloc 16).Ok := by show 16 < W64; decide
  have r1 : BReach g l ar calm goodBoot (.call t (.malloc 16) (.ptr p) :: h) b1 :=
    .step (a := .call t (.malloc 16) chs) r ⟨n16, he⟩ (by unfold goodBoot; split <;> trivial) (by unfold Boot.step; simp only [h1])
  have k := c48_from_start goodBoot_follows r
  have key : b1.ro.isSome ∧ (p = 0 ∨ live h p = none) ∧ live h 0 = none := by
    cases hb : b.ro with
    | none =>
      rw [hb] at k
      have k : Early h b := k
      refine ⟨?_, Or.inr (k.none p), k.none 0⟩
      rcases boot_first (calm := calm) (c := .malloc 16) k rfl hb chs with ⟨m, h3⟩ | ⟨ro, s0, _, j, _, _, _, h3⟩
      · rw [h1] at h3; cases h3
      · rw [h1] at h3
        split at h3 <;> cases h3
        rfl
    | some ro =>
      rw [hb] at k
      obtain ⟨h0, h3, hf, e1, _, e2, _, r2⟩ := k
      obtain ⟨hro, _⟩ := r2.roOk hg
      obtain ⟨w, f, _⟩ := r2.fits hg
      unfold Boot.call at h1
      simp only [hb] at h1
      split at h1 <;> cases h1
      rename_i s1 h4
      refine ⟨rfl, ?_, ?_⟩
      · by_cases e : p = 0
        · exact Or.inl e
        · right
          rw [e2]
          exact c02_new_block (c := .malloc 16) (i := ⟨16, none⟩) hg r2 n16 he h4 rfl (if_neg e)
      · rw [e2]
        cases e : live (h3 ++ hf) 0 with
        | none => rfl
        | some i => exact absurd rfl (f.live_ne_zero hro (p := 0) (by rw [e]; rfl))
  obtain ⟨hb, hp, h0⟩ := key
  obtain ⟨ro, hb⟩ := Option.isSome_iff_exists.mp hb
  have hx : b'.ro = some ro ∧ x = .unit := by
    unfold Boot.call at h2
    simp only [hb] at h2
    split at h2 <;> cases h2
    rename_i s1 h4
    refine ⟨rfl, ?_⟩
    unfold Sys.call at h4
    rw [show Call.prog ro (ar t) (.free p) = (hFree ro p).bind fun _ => .ret .unit from rfl, Prog.run_bind_ret (fun _ => Ret.unit)] at h4
    cases hr : (hFree ro p).run chs' b1.s.σ (b1.s.tl t) with
    | ok y => rw [hr] at h4; cases h4; rfl
    | _ => rw [hr] at h4; cases h4
  obtain ⟨hb', rfl⟩ := hx
  have hlp : p ≠ 0 → (live (.call t (.malloc 16) (.ptr p) :: h) p).isSome := fun e => by
    show (liveStep (live h) (.call t (.malloc 16) (.ptr p)) p).isSome
    rw [liveStep_request (c := .malloc 16) (x := .ptr p) (p := p) (i := ⟨16, none⟩) rfl (if_neg e), if_pos rfl]; rfl
  refine ⟨by rw [hb']; rfl, _, .step (a := .call t (.free p) chs') r1 ⟨?_, he'⟩ ?_ (by unfold Boot.step; simp only [h2]), live_malloc h t 16 p hp h0⟩
  · by_cases e : p = 0
    · rw [e]; show 0 < W64; decide
    · have k1 := c48_from_start goodBoot_follows r1
      rw [hb] at k1
      obtain ⟨_, h3, _, _, _, e2, _, r2⟩ := k1
      exact live_lt hg r2 (p := p) (by rw [← e2]; exact hlp e)
  · unfold goodBoot
    simp only [hb]
    show p = 0 ∨ _
    by_cases e : p = 0
    · exact Or.inl e
    · exact Or.inr (hlp e)

end

/-- A live block, a freed one, and `mallopt(M_PURGE, 0)`. -/
example : ∃ h s, Reach (exCfg false false false) (exRo false false false) (fun t => t % 4) false anyClient h s ∧ (live h exA).isSome ∧
    Usable (exRo false false false) s.σ exA 104 ∧ (∀ _ : Nat, Env false (exAt 0)) ∧
    ∃ σ' tl', (hMallopt true (some (exRo false false false)) (-101)).run (fun _ => exAt 0) s.σ (s.tl 0) = .ok (σ', tl', 1) := by
  obtain ⟨h, s, h1, h2⟩ := ex_any0 (stats := false) (sealed := false) (calm := false)
    [.call 0 (.malloc 100) 0, .call 0 (.malloc 100) 0, .store exA 7, .call 1 (.free exB) 0]
    (fun h s => (live h exA).isSome && decide (usableB (exRo false false false) s.σ exA = some 104) &&
      match (hMallopt true (some (exRo false false false)) (-101)).run (fun _ => exAt 0) s.σ (s.tl 0) with
      | .ok (_, _, x) => decide (x = 1)
      | _ => false) (by decide +kernel)
  simp only [Bool.and_eq_true] at h2
  obtain ⟨⟨h2, h3⟩, h4⟩ := h2
  refine ⟨h, s, h1, h2, usableB_usable (of_decide_eq_true h3), fun _ => exAt_env _ _, ?_⟩
  revert h4
  cases (hMallopt true (some (exRo false false false)) (-101)).run (fun _ => exAt 0) s.σ (s.tl 0) with
  | ok y => exact fun h4 => ⟨y.1, y.2.1, by rw [← of_decide_eq_true h4]⟩
  | _ => exact nofun

/-- The constructor at the start of the process. -/
example : ∃ b b' chs, BReach (exCfg true true) exLayout (fun t => t % 4) false goodBoot [] b ∧ (∀ n, Env false (chs n)) ∧ b.ro = none ∧
    ∃ p, p ≠ 0 ∧ b.earlyInit (exCfg true true) exLayout (fun t => t % 4) 0 chs (fun _ => Choice.quiet) = .ok (b', p) := by
  obtain ⟨I, eI, hI⟩ := exRun_init true true
  have hi : ∀ n, Env false (exInitChoices n) := fun n => by
    unfold exInitChoices
    split <;> exact exAt_env _ _
  have hm : ∃ s s' p, p ≠ 0 ∧ Sys.call (exRo true true) (fun t => t % 4) ⟨exSt, fun u => if u = 0 then ⟨0, false⟩ else ⟨0, false⟩⟩ 0 (.malloc 16) (fun _ => Choice.quiet) =
      .ok (s, .ptr p) ∧ s.call (exRo true true) (fun t => t % 4) 0 (.free p) (fun _ => Choice.quiet) = .ok (s', .unit) := by
    have : (match Sys.call (exRo true true) (fun t => t % 4) ⟨exSt, fun u => if u = 0 then ⟨0, false⟩ else ⟨0, false⟩⟩ 0 (.malloc 16)
        (fun _ => Choice.quiet) with
        | .ok (s, .ptr p) => decide (p ≠ 0) && match s.call (exRo true true) (fun t => t % 4) 0 (.free p) (fun _ => Choice.quiet) with
          | .ok (_, .unit) => true
          | _ => false
        | _ => false) = true := by decide +kernel
    split at this <;> try cases this
    rename_i s p h1
    rw [Bool.and_eq_true, decide_eq_true_eq] at this
    obtain ⟨h2, h3⟩ := this
    split at h3 <;> try cases h3
    rename_i s' h4
    exact ⟨s, s', p, h2, h1, h4⟩
  obtain ⟨s, s', p, hp, hm, hf⟩ := hm
  obtain ⟨k, hk⟩ := boot_call_init (b := ⟨none, ⟨St.zero, fun _ => ⟨0, false⟩⟩⟩) eI rfl rfl hI hm
  refine ⟨⟨none, ⟨St.zero, fun _ => ⟨0, false⟩⟩⟩, ⟨some (exRo true true), s'⟩, fun n => if n < k then exInitChoices n else Choice.quiet, .start fun _ => rfl, fun n => ?_, rfl, p, hp, ?_⟩
  · simp only; split; exacts [hi n, exAt_env false 0]
  · unfold Boot.earlyInit
    rw [hk]
    simp only [Boot.call, hf]

end HM
