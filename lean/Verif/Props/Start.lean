import Verif.Props.Boot
import Verif.Props.Counts
import Verif.Props.Race
/-
C48: threads may take over from any history of calls made one after the other, from the start of the process on.
-/
namespace HM

variable {g : Cfg} {l : Layout} {ro : Ro} {ar : Nat → Nat} {calm : Bool} {t : Nat}

/-- The system calls made during the action are answered in a way that is considered in executions with threads. -/
def Act.Roomy (calm : Bool) : Act → Prop
  | .call _ c chs => ∀ n, CEnv calm c (chs n)
  | _ => True

/-- A thread that is left alone performs all actions of its call. -/
theorem run_alone {h : List CEv} {c : Call} {x : Ret} {σ' : St} {tl' : Tl} {P : Prog Ret} :
    ∀ {s : CSys} {chs : Nat → Choice}, CReach g ro ar calm h s → s.run t = some (c, P) → (∀ n, CEnv calm c (chs n)) → P.run chs s.σ (s.tl t) = .ok (σ', tl', x) →
      CReach g ro ar calm h ⟨σ', upd s.tl t tl', upd s.run t (some (c, .ret x)), s.start⟩ := by
  induction P with
  | ret a =>
    intro s chs r hc _ hr
    simp only [Prog.run, Res.ok.injEq, Prod.mk.injEq] at hr
    obtain ⟨rfl, rfl, rfl⟩ := hr
    rw [upd_eta, ← hc, upd_eta]
    exact r
  | act f k ih =>
    intro s chs r hc he hr
    simp only [Prog.run] at hr
    cases e : f (chs 0) s.σ (s.tl t) with
    | ok y =>
      obtain ⟨σ1, tl1, b⟩ := y
      rw [e] at hr
      have := ih b (r.step t hc (he 0) e) (chs := fun n => chs (n + 1)) (upd_at _ _ _) (fun n => he _) (by
        show Prog.run _ _ σ1 (upd s.tl t tl1 t) = _
        rw [upd_at]; exact hr)
      simp only [upd_upd] at this
      exact this
    | _ => rw [e] at hr; cases hr

/-- A call that nobody interrupts. -/
theorem call_alone {h : List CEv} {σ σ' : St} {tl : Nat → Tl} {st : Nat → St} {c : Call} {x : Ret} {b : Nat} {tl' : Tl} {chs : Nat → Choice}
    (r : CReach g ro ar calm h ⟨σ, tl, fun _ => none, st⟩) (hok : c.Ok) (hl : Lends ro (hold h) σ b c) (he : ∀ n, CEnv calm c (chs n))
    (hr : (c.prog ro (ar t)).run chs σ (tl t) = .ok (σ', tl', x)) :
    CReach g ro ar calm (.ret t c x :: .inv t c b :: h) ⟨σ', upd tl t tl', fun _ => none, upd st t σ⟩ := by
  have r1 := run_alone (r.invoke t c b rfl hok hl) (upd_at _ _ _) he hr
  have r2 := r1.ret t (upd_at _ _ _)
  simp only [upd_upd] at r2
  have e : upd (fun _ => none : Nat → Option (Call × Prog Ret)) t none = fun _ => none := by funext u; unfold upd; split <;> rfl
  rw [e] at r2
  exact r2

/-- Specification: the block that an application without errors lends to a call. -/
theorem lends_good {D : List Ev} {s : Sys} {chs : Nat → Choice} {c : Call} {H : Hold} (hl : H.live = live D) (hd : goodClient ro D s (.call t c chs)) :
    ∃ b, Lends ro H s.σ b c := by
  cases c with
  | free p => exact ⟨p, rfl, by rw [hl]; exact hd⟩
  | freeSized p n => exact ⟨p, rfl, by rw [hl]; exact hd⟩
  | realloc p n => exact ⟨p, rfl, by rw [hl]; exact hd⟩
  | usableSize p => exact ⟨p, rfl, by rw [hl]; exact hd⟩
  | objectSize p =>
    rcases hd with h | ⟨q, u, h1, h2⟩
    · exact ⟨0, Or.inl ⟨h, rfl⟩⟩
    · exact ⟨q, Or.inr ⟨by rw [hl]; exact h1, u, h2⟩⟩
  | _ => exact ⟨0, rfl⟩

/-- Lending a block to a call and getting back what it returns is what the call does to the live blocks. -/
theorem hold_call {h : List CEv} {D : List Ev} {s : St} {c : Call} {x : Ret} {b : Nat} (hl : (hold h).live = live D) (h0 : live D 0 = none) (hb : Lends ro (hold h) s b c) :
    (hold (.ret t c x :: .inv t c b :: h)).live = live (.call t c x :: D) := by
  have back : ∀ b, (fun y => match (Option.map (b, ·) (live D b) : Option (Nat × Info)) with
      | some (q, i) => if y = q then some i else if y = b then none else live D y
      | none => if y = b then none else live D y) = live D := fun b => by
    funext y
    cases e : live D b with
    | none =>
      simp only [Option.map_none]
      split
      · rename_i k; rw [k, e]
      · rfl
    | some i =>
      simp only [Option.map_some]
      split
      · rename_i k; rw [k, e]
      · rfl
  have zero : (fun y => if y = 0 then none else live D y) = live D := by
    funext y
    split
    · rename_i k; rw [k, h0]
    · rfl
  show (fun y => match c.gives (if t = t then ((hold h).live b).map (b, ·) else (hold h).hand t) x with
      | some (q, i) => if y = q then some i else if y = b then none else (hold h).live y
      | none => if y = b then none else (hold h).live y) = liveStep (live D) (.call t c x)
  rw [if_pos rfl, hl]
  cases c with
  | free p => obtain ⟨rfl, _⟩ := hb; rfl
  | freeSized p n => obtain ⟨rfl, _⟩ := hb; rfl
  | usableSize p => exact back b
  | objectSize p => exact back b
  | realloc p n =>
    obtain ⟨rfl, hb⟩ := hb
    simp only [Call.gives, liveStep]
    cases ex : x.block with
    | none => exact back b
    | some q =>
      simp only
      rcases hb with rfl | ⟨i, hi, _⟩
      · rw [if_pos rfl, h0]
        funext y
        simp only [Option.map_none]
        split
        · rfl
        · exact congrFun zero y
      · rw [hl] at hi
        rw [if_neg (fun e => by rw [e, h0] at hi; cases hi), hi]
        rfl
  | _ =>
    cases (hb : b = 0)
    simp only [Call.gives, Call.request, liveStep]
    cases x.block with
    | none => exact zero
    | some q =>
      first
      | exact zero
      | funext y
        simp only
        split
        · rfl
        · exact congrFun zero y

/-- Every history of calls made one after the other by an application without memory errors is one of the executions with threads. -/
theorem reach_threads (hg : Good g ar) {D : Client} (hD : ∀ h s a, D h s a → goodClient ro h s a ∧ a.Roomy calm) {h : List Ev} {s : Sys} (r : Reach g ro ar calm D h s) :
    ∃ h' st, CReach g ro ar calm h' ⟨s.σ, s.tl, fun _ => none, st⟩ ∧ (hold h').live = live h ∧ (∀ u, (hold h').hand u = none) ∧ cforeign h' = foreign h := by
  induction r with
  | init h htl => exact ⟨[], _, .init h htl, rfl, fun _ => rfl, rfl⟩
  | @other h s hr pg pr data hp ih =>
    obtain ⟨h', st, r', h1, h2, h3⟩ := ih
    refine ⟨_, st, r'.other pg pr data (by rw [h3]; exact hp), h1, h2, ?_⟩
    show (fun q => if q = pg then _ else cforeign h' q) = fun q => if q = pg then _ else foreign h q
    rw [h3]
  | @step h s s' a e hr ha hd hs ih =>
    obtain ⟨h', st, r', h1, h2, h3⟩ := ih
    have h0 : live h 0 = none := by
      obtain ⟨w, f, _⟩ := hr.fits hg
      cases e : live h 0 with
      | none => rfl
      | some i => exact absurd rfl (f.live_ne_zero (hr.roOk hg).1 (p := 0) (by rw [e]; rfl))
    cases a with
    | store x v =>
      simp only [Sys.step, Res.ok.injEq, Prod.mk.injEq] at hs
      obtain ⟨rfl, rfl⟩ := hs
      obtain ⟨p, u, k1, k2, k3, k4⟩ := (hD _ _ _ hd).1
      exact ⟨_, st, r'.store x v (p := p) (u := u) (by rw [h1]; exact k1) k2 k3 k4, h1, h2, h3⟩
    | errno t e =>
      simp only [Sys.step, Res.ok.injEq, Prod.mk.injEq] at hs
      obtain ⟨rfl, rfl⟩ := hs
      refine ⟨.errno t e :: h', st, ?_, h1, h2, h3⟩
      have := r'.errno t e rfl
      have k : (fun u => if u = t then { s.tl u with errno := e } else s.tl u) = upd s.tl t { s.tl t with errno := e } := by
        funext u; unfold upd; split
        · rename_i k; rw [k]
        · rfl
      rw [k]
      exact this
    | call t c chs =>
      simp only [Sys.step, Sys.call] at hs
      cases hx : (c.prog ro (ar t)).run chs s.σ (s.tl t) with
      | ok y =>
        obtain ⟨σ', tl', x⟩ := y
        simp only [hx, Res.ok.injEq, Prod.mk.injEq] at hs
        obtain ⟨rfl, rfl⟩ := hs
        obtain ⟨k1, k2⟩ := hD _ _ _ hd
        obtain ⟨b, hb⟩ := lends_good h1 k1
        refine ⟨_, _, call_alone r' ha.1 hb k2 hx, hold_call h1 h0 hb, fun u => ?_, h3⟩
        show (if u = t then none else if u = t then _ else _) = _
        split
        · rfl
        · exact h2 u
      | _ => simp only [hx] at hs; cases hs

/-- An application without memory errors, and a kernel whose answers are considered in executions with threads. -/
def roomyBoot (calm : Bool) : List Ev → Boot → Act → Prop := fun h b a => goodBoot h b a ∧ a.Roomy calm

theorem roomyBoot_follows : Follows (roomyBoot calm) fun ro h s a => goodClient ro h s a ∧ a.Roomy calm :=
  ⟨fun ro h0 h1 h2 s a k1 k2 h => ⟨goodBoot_follows.up ro h0 h1 h2 s a k1 k2 h.1, h.2⟩,
    fun ro h0 h2 s s' t c chs k k1 k2 k3 h => ⟨goodBoot_follows.first ro h0 h2 s s' t c chs k k1 k2 k3 h.1, fun _ => h.2 _⟩⟩

/-- C48. Threads that start at any moment of a process that has initialised the allocator: all that is proved about executions with threads holds for them. From
the start of the process on, whatever calls were made one after the other and whatever memory others have mapped, before the allocator was initialised or
later, the state is one of those that are reachable with threads, with the same live blocks, and the same memory of others. -/
theorem c48_threads (hg : Good g ar) {h : List Ev} {b : Boot} (r : BReach g l ar calm (roomyBoot calm) h b) (hb : b.ro = some ro) :
    ∃ h' st, CReach g ro ar calm h' ⟨b.s.σ, b.s.tl, fun _ => none, st⟩ ∧ (hold h').live = live h ∧ (∀ u, (hold h').hand u = none) ∧
      ∀ pg, cforeign h' pg = foreign h pg := by
  have k := c48_from_start roomyBoot_follows r
  rw [hb] at k
  obtain ⟨h0, h1, h2, rfl, _, e1, e2, k⟩ := k
  obtain ⟨h', st, k1, k2, k3, k4⟩ := reach_threads hg (fun _ _ _ h => h) k
  exact ⟨h', st, k1, k2.trans e1.symm, k3, fun pg => by rw [k4, e2]⟩

/-- A process in which others map a page, the first call initialises the allocator, and then threads start. -/
example : ∃ h b h' st, BReach (exCfg true true) exLayout (fun t => t % 4) false (roomyBoot false) h b ∧
    CReach (exCfg true true) (exRo true true) (fun t => t % 4) false h' ⟨b.s.σ, b.s.tl, fun _ => none, st⟩ ∧ cforeign h' 1 = true := by
  have hi : ∀ n, Env false (exInitChoices n) := fun n => by
    unfold exInitChoices
    split <;> exact exAt_env _ _
  have r0 : BReach (exCfg true true) exLayout (fun t => t % 4) false (roomyBoot false) [] ⟨none, ⟨St.zero, fun _ => ⟨0, false⟩⟩⟩ := .start fun _ => rfl
  have r1 := r0.other 1 .rw (fun _ => 7#8) (Or.inr rfl) nofun
  obtain ⟨I, σ, eI, hI⟩ := exRun_over (g := exCfg true true) (σ0 := { St.zero with vm := St.zero.vm.foreign 1 .rw fun _ => 7#8 }) (fun pg hp => if_neg (by omega))
    rfl (by decide) (by decide) (by decide)
  have hm : Sys.call (exRo true true) (fun t => t % 4) ⟨σ, fun u => if u = 0 then ⟨0, false⟩ else ⟨0, false⟩⟩ 0 (.posixMemalign 3 8) (fun _ => Choice.quiet) =
      .ok (⟨σ, fun u => if u = 0 then ⟨0, false⟩ else if u = 0 then ⟨0, false⟩ else ⟨0, false⟩⟩, .memalign (.error EINVAL)) := rfl
  obtain ⟨k, hk⟩ := boot_call_init (b := ⟨none, ⟨{ St.zero with vm := St.zero.vm.foreign 1 .rw fun _ => 7#8 }, fun _ => ⟨0, false⟩⟩⟩) eI rfl rfl hI hm
  have r2 := r1.step (a := .call 0 (.posixMemalign 3 8) fun n => if n < k then exInitChoices n else Choice.quiet) (e := .call 0 (.posixMemalign 3 8) (.memalign (.error EINVAL)))
    ⟨⟨by decide, by decide⟩, fun n => by simp only; split; exacts [hi n, exAt_env false 0]⟩
    ⟨trivial, fun n => ⟨by simp only; split; exacts [hi n, exAt_env false 0], fun _ => by show 3 ≤ 4096; decide⟩⟩ (boot_step_call hk)
  obtain ⟨h', st, c1, _, _, c2⟩ := c48_threads (exGood true true) r2 rfl
  exact ⟨_, _, h', st, r2, c1, c2 1⟩

end HM
