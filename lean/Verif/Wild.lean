import Verif.Blind
import Verif.Props.Threads
/-
Interleaved calls of an application with memory errors: at any moment any thread may overwrite any byte that can be
written, be it beyond the end of a block, in a block that has been freed, or in a block that was never allocated. What the
application passes to the calls is what it has; only its stores go astray.

The proof is by simulation. The allocator keeps its state outside of the memory it hands out, and looks at the contents of
that memory only to find it overwritten, in which case it aborts (`Prog.Blind`). So whatever such an application does, the
state of the allocator is that of an execution in which the application made the same calls and no stores at all.
-/
namespace HM

/-- The application lends block `b` to call `c`. As `Lends`; the application passes to `malloc_object_size` only pointers
into the part of a block that it requested. -/
def WLends (ro : Ro) (H : Hold) (b : Nat) : Call → Prop
  | .free p => b = p ∧ (p = 0 ∨ (H.live p).isSome)
  | .freeSized p n => b = p ∧ (p = 0 ∨ H.live p = some ⟨n, none⟩)
  | .realloc p _ => b = p ∧ (p = 0 ∨ ∃ i, H.live p = some i ∧ ¬ OverAligned ro.g i)
  | .usableSize p => b = p ∧ (p = 0 ∨ (H.live p).isSome)
  | .objectSize x => (x = 0 ∧ b = 0) ∨ ∃ i, H.live b = some i ∧ b ≤ x ∧ x < b + i.size
  | _ => b = 0

/-- The states that are reachable from a successful initialisation by an application whose stores may go anywhere, with the
history that leads there. As `CReach`, apart from `store`. -/
inductive WReach (g : Cfg) (ro : Ro) (ar : Nat → Nat) (calm : Bool) : List CEv → CSys → Prop where
  | init {σ : St} {tl : Nat → Tl} (h : Initialised g ro σ) (htl : ∀ t, (tl t).unsealed = false) :
      WReach g ro ar calm [] ⟨σ, tl, fun _ => none, fun _ => σ⟩
  /-- Thread `t` begins a call. -/
  | invoke {h : List CEv} {s : CSys} (r : WReach g ro ar calm h s) (t : Nat) (c : Call) (b : Nat) (hi : s.run t = none) (hok : c.Ok)
      (hl : WLends ro (hold h) b c) :
      WReach g ro ar calm (.inv t c b :: h) ⟨s.σ, s.tl, upd s.run t (some (c, c.prog ro (ar t))), upd s.start t s.σ⟩
  /-- Thread `t` performs the next action of its call. -/
  | step {h : List CEv} {s : CSys} (r : WReach g ro ar calm h s) (t : Nat) {c : Call} {β : Type}
      {l : Option Sect} {f : Choice → St → Tl → Res (St × Tl × β)} {k : β → Prog Ret} (hc : s.run t = some (c, .act (l := l) f k)) {ch : Choice} (he : CEnv calm c ch)
      {σ' : St} {tl' : Tl} {b : β} (hf : f ch s.σ (s.tl t) = .ok (σ', tl', b)) :
      WReach g ro ar calm h ⟨σ', upd s.tl t tl', upd s.run t (some (c, k b)), s.start⟩
  /-- The call of thread `t` returns. -/
  | ret {h : List CEv} {s : CSys} (r : WReach g ro ar calm h s) (t : Nat) {c : Call} {x : Ret} (hc : s.run t = some (c, .ret x)) :
      WReach g ro ar calm (.ret t c x :: h) ⟨s.σ, s.tl, upd s.run t none, s.start⟩
  /-- The application stores a byte anywhere; this has an effect if the page can be written. -/
  | store {h : List CEv} {s : CSys} (r : WReach g ro ar calm h s) (x : Nat) (v : BitVec 8) :
      WReach g ro ar calm (.store x v :: h) ⟨{ s.σ with vm := s.σ.vm.appStore x v }, s.tl, s.run, s.start⟩
  /-- Thread `t`, outside of a call, sets its errno. -/
  | errno {h : List CEv} {s : CSys} (r : WReach g ro ar calm h s) (t : Nat) (e : Errno) (hi : s.run t = none) :
      WReach g ro ar calm (.errno t e :: h) ⟨s.σ, upd s.tl t { s.tl t with errno := e }, s.run, s.start⟩
  /-- Thread `t`, outside of a call, forks (see `CReach.fork`). -/
  | fork {h : List CEv} {s : CSys} (r : WReach g ro ar calm h s) (t : Nat) (hi : s.run t = none) :
      WReach g ro ar calm (.fork t :: h) ⟨s.σ, fun u => if u = t then s.tl t else ⟨0, false⟩, fun _ => none, s.start⟩
  /-- Someone else than the allocator maps a page that is not in use, or changes or releases a page of theirs. -/
  | other {h : List CEv} {s : CSys} (r : WReach g ro ar calm h s) (pg : Nat) (pr : Prot) (data : Nat → BitVec 8)
      (hp : cforeign h pg = true ∨ s.σ.vm.prot pg = .unmapped) :
      WReach g ro ar calm (.foreign pg (pr != .unmapped) :: h) ⟨{ s.σ with vm := s.σ.vm.foreign pg pr data }, s.tl, s.run, s.start⟩

/-- One step of the system, as in `WReach`, from one state with its history to the next. -/
inductive WStep (ro : Ro) (ar : Nat → Nat) (calm : Bool) (h : List CEv) (s : CSys) : List CEv → CSys → Prop where
  | invoke (t : Nat) (c : Call) (b : Nat) (hi : s.run t = none) (hok : c.Ok) (hl : WLends ro (hold h) b c) :
      WStep ro ar calm h s (.inv t c b :: h) ⟨s.σ, s.tl, upd s.run t (some (c, c.prog ro (ar t))), upd s.start t s.σ⟩
  | step (t : Nat) {c : Call} {β : Type} {l : Option Sect} {f : Choice → St → Tl → Res (St × Tl × β)} {k : β → Prog Ret}
      (hc : s.run t = some (c, .act (l := l) f k)) {ch : Choice} (he : CEnv calm c ch) {σ' : St} {tl' : Tl} {b : β} (hf : f ch s.σ (s.tl t) = .ok (σ', tl', b)) :
      WStep ro ar calm h s h ⟨σ', upd s.tl t tl', upd s.run t (some (c, k b)), s.start⟩
  | ret (t : Nat) {c : Call} {x : Ret} (hc : s.run t = some (c, .ret x)) :
      WStep ro ar calm h s (.ret t c x :: h) ⟨s.σ, s.tl, upd s.run t none, s.start⟩
  | store (x : Nat) (v : BitVec 8) :
      WStep ro ar calm h s (.store x v :: h) ⟨{ s.σ with vm := s.σ.vm.appStore x v }, s.tl, s.run, s.start⟩
  | errno (t : Nat) (e : Errno) (hi : s.run t = none) :
      WStep ro ar calm h s (.errno t e :: h) ⟨s.σ, upd s.tl t { s.tl t with errno := e }, s.run, s.start⟩
  | fork (t : Nat) (hi : s.run t = none) :
      WStep ro ar calm h s (.fork t :: h) ⟨s.σ, fun u => if u = t then s.tl t else ⟨0, false⟩, fun _ => none, s.start⟩
  | other (pg : Nat) (pr : Prot) (data : Nat → BitVec 8) (hp : cforeign h pg = true ∨ s.σ.vm.prot pg = .unmapped) :
      WStep ro ar calm h s (.foreign pg (pr != .unmapped) :: h) ⟨{ s.σ with vm := s.σ.vm.foreign pg pr data }, s.tl, s.run, s.start⟩

theorem WReach.next {g : Cfg} {ro : Ro} {ar : Nat → Nat} {calm : Bool} {h h' : List CEv} {s s' : CSys} (r : WReach g ro ar calm h s)
    (st : WStep ro ar calm h s h' s') : WReach g ro ar calm h' s' := by
  cases st with
  | invoke t c b hi hok hl => exact .invoke r t c b hi hok hl
  | step t hc he hf => exact .step r t hc he hf
  | ret t hc => exact .ret r t hc
  | store x v => exact .store r x v
  | errno t e hi => exact .errno r t e hi
  | fork t hi => exact .fork r t hi
  | other pg pr data hp => exact .other r pg pr data hp

/-! ### The execution without the stores -/

/-- The history without the stores. -/
def dropStores : List CEv → List CEv
  | [] => []
  | .store _ _ :: h => dropStores h
  | e :: h => e :: dropStores h

theorem hold_dropStores (h : List CEv) : hold (dropStores h) = hold h := by
  induction h with
  | nil => rfl
  | cons e h ih => cases e <;> simp only [dropStores, hold, ih] <;> rfl

theorem cforeign_dropStores (h : List CEv) : cforeign (dropStores h) = cforeign h := by
  induction h with
  | nil => rfl
  | cons e h ih => cases e <;> simp only [dropStores, cforeign, ih]

/-- The states differ in the contents of memory at most (and in where the calls began). -/
structure Shadow (s s' : CSys) : Prop where
  σ : s'.σ = { s.σ with vm := s'.σ.vm }
  prot : s'.σ.vm.prot = s.σ.vm.prot
  tl : s'.tl = s.tl
  run : s'.run = s.run

section
variable {g : Cfg} {ro : Ro} {ar : Nat → Nat} {calm : Bool} {h : List CEv} {s : CSys}

theorem CEnv.calmed {c : Call} {ch : Choice} : CEnv calm c ch.calm :=
  ⟨⟨by simp [Choice.calm], fun _ => ⟨by simp [Choice.calm], by simp [Choice.calm]⟩⟩, by simp [Choice.calm]⟩

/-- Without stray stores the allocator does not find memory overwritten. -/
theorem CReach.not_corrupt (hg : Good g ar) (r : CReach g ro ar calm h s) {t : Nat} {c : Call} {β : Type} {l : Option Sect} {f : Choice → St → Tl → Res (St × Tl × β)}
    {k : β → Prog Ret} (hc : s.run t = some (c, .act (l := l) f k)) (hb : BlindAct f) {ch : Choice} {m : String} (hm : Corrupt m) :
    f ch s.σ (s.tl t) ≠ .fatal m := by
  intro e
  have h1 := c36_no_abort_partial hg r hc (CEnv.calmed (ch := ch))
  rw [hb.calm _ _ _ _ hm e] at h1
  simp [Choice.calm] at h1

/-- The next action of a call, in the state with stray stores and in any number of states without. -/
theorem Shadow.step {ι : Type} (hg : Good g ar) (hs : ι → List CEv) (ss : ι → CSys) (hr : ∀ i, CReach g ro ar calm (hs i) (ss i)) (hS : ∀ i, Shadow s (ss i))
    {t : Nat} {c : Call} {β : Type} {l : Option Sect} {f : Choice → St → Tl → Res (St × Tl × β)} {k : β → Prog Ret}
    (hc : s.run t = some (c, .act (l := l) f k)) (hb : BlindAct f) {ch : Choice} :
    (∃ m, Corrupt m ∧ f ch s.σ (s.tl t) = .fatal m) ∨
    (∃ (σ0 : St) (w : Vm) (w' : ι → Vm) (tl' : Tl) (b : β), f ch s.σ (s.tl t) = .ok ({ σ0 with vm := w }, tl', b) ∧
      (∀ i, f ch (ss i).σ ((ss i).tl t) = .ok ({ σ0 with vm := w' i }, tl', b) ∧ (w' i).prot = w.prot) ∧
      ∃ φ : Subst, (∀ x, w.mem x = φ.at s.σ.vm.mem x) ∧ ∀ i x, (w' i).mem x = φ.at (ss i).σ.vm.mem x) ∨
    (∀ y, f ch s.σ (s.tl t) ≠ .ok y) ∧ ∀ i, f ch (ss i).σ ((ss i).tl t) = f ch s.σ (s.tl t) := by
  have h1 := hb.blind ch s.σ (s.tl t) (fun o : Option ι => match o with | none => s.σ.vm | some i => (ss i).σ.vm) s.σ.vm.prot
    (fun o => match o with | none => rfl | some i => (hS i).prot)
  have e0 : ∀ i, f ch (ss i).σ ((ss i).tl t) = f ch { s.σ with vm := (ss i).σ.vm } (s.tl t) := fun i => by
    rw [(hS i).tl]; exact congrArg (fun y => f ch y (s.tl t)) (hS i).σ
  generalize hF : (fun o : Option ι => f ch { s.σ with vm := match o with | none => s.σ.vm | some i => (ss i).σ.vm } (s.tl t)) = F at h1
  have eN : F none = f ch s.σ (s.tl t) := (congrFun hF none).symm
  have eS : ∀ i, F (some i) = f ch (ss i).σ ((ss i).tl t) := fun i => (congrFun hF (some i)).symm.trans (e0 i).symm
  cases h1 with
  | ok a h =>
    obtain ⟨σ0, v, ⟨tl', b⟩, rfl, B⟩ := h
    obtain ⟨pr, hp⟩ := B.prot
    obtain ⟨φ, hφ⟩ := B.mem
    exact .inr (.inl ⟨σ0, v none, fun i => v (some i), tl', b, eN.symm, fun i => ⟨(eS i).symm, by rw [hp, hp]⟩, φ, hφ none, fun i => hφ (some i)⟩)
  | fatal m => exact .inr (.inr ⟨(fun y e => by rw [← eN] at e; cases e), fun i => by rw [← eS, ← eN]⟩)
  | segv => exact .inr (.inr ⟨(fun y e => by rw [← eN] at e; cases e), fun i => by rw [← eS, ← eN]⟩)
  | ub m => exact .inr (.inr ⟨(fun y e => by rw [← eN] at e; cases e), fun i => by rw [← eS, ← eN]⟩)
  | hang => exact .inr (.inr ⟨(fun y e => by rw [← eN] at e; cases e), fun i => by rw [← eS, ← eN]⟩)
  | corrupt o hm h =>
    cases o with
    | none => exact .inl ⟨_, hm, eN ▸ h⟩
    | some i =>
      have hc' : (ss i).run t = some (c, .act (l := l) f k) := by rw [(hS i).run]; exact hc
      exact absurd (eS i ▸ h) ((hr i).not_corrupt hg hc' hb hm)

/-- A step with stray stores is mirrored by one without. -/
theorem WStep.mirror (hg : Good g ar) {h1 : List CEv} {s' s1 : CSys} (r' : CReach g ro ar calm (dropStores h) s') (S : Shadow s s')
    (hB : ∀ t c P, s.run t = some (c, P) → P.Blind) (st : WStep ro ar calm h s h1 s1) :
    ∃ s1', ((∃ x v, h1 = .store x v :: h ∧ s1.run = s.run ∧ s1' = s') ∨ CStep ro ar calm (dropStores h) s' (dropStores h1) s1') ∧ Shadow s1 s1' := by
  cases st with
  | invoke t c b hi hok hl =>
    have hl' : Lends ro (hold (dropStores h)) s'.σ b c := by
      rw [hold_dropStores]
      cases c with
      | objectSize x =>
        refine hl.imp id fun ⟨i, h1, h2, h3⟩ => ?_
        have h4 : (hold (dropStores h)).live b = some i := by rw [hold_dropStores]; exact h1
        obtain ⟨⟨u, hu⟩, h5⟩ := c36_usable_partial hg r' h4
        have := (h5 u hu).1
        exact ⟨by rw [h1]; rfl, u, hu, h2, by omega⟩
      | _ => exact hl
    refine ⟨_, .inr (.invoke t c b (by rw [S.run]; exact hi) hok hl'), S.σ, S.prot, S.tl, ?_⟩
    show upd s'.run t _ = upd s.run t _
    rw [S.run]
  | @step t c β l f k hc ch he σ' tl' b hf =>
    obtain ⟨hb, hk⟩ := (hB t c _ hc).act
    have hc' : s'.run t = some (c, .act (l := l) f k) := by rw [S.run]; exact hc
    rcases Shadow.step (ι := Unit) hg (fun _ => dropStores h) (fun _ => s') (fun _ => r') (fun _ => S) hc hb (ch := ch) with
      ⟨m, _, h1⟩ | ⟨σ0, w, w', tl1, b1, h1, h2, _⟩ | h1
    · rw [hf] at h1; cases h1
    · rw [hf] at h1
      cases h1
      refine ⟨_, .inr (.step t hc' he (h2 ()).1), rfl, (h2 ()).2, ?_, ?_⟩
      · show upd s'.tl t _ = upd s.tl t _
        rw [S.tl]
      · show upd s'.run t _ = upd s.run t _
        rw [S.run]
    · exact absurd hf (h1.1 _)
  | ret t hc =>
    refine ⟨_, .inr (.ret t (by rw [S.run]; exact hc)), S.σ, S.prot, S.tl, ?_⟩
    show upd s'.run t _ = upd s.run t _
    rw [S.run]
  | store x v =>
    refine ⟨s', .inl ⟨x, v, rfl, rfl, rfl⟩, S.σ, ?_, S.tl, S.run⟩
    rw [S.prot]
    show _ = (Vm.appStore s.σ.vm x v).prot
    unfold Vm.appStore; split <;> rfl
  | errno t e hi =>
    refine ⟨_, .inr (.errno t e (by rw [S.run]; exact hi)), S.σ, S.prot, ?_, S.run⟩
    show upd s'.tl t _ = upd s.tl t _
    rw [S.tl]
  | fork t hi =>
    refine ⟨_, .inr (.fork t (by rw [S.run]; exact hi)), S.σ, S.prot, ?_, rfl⟩
    show (fun u => if u = t then s'.tl t else _) = fun u => if u = t then s.tl t else _
    rw [S.tl]
  | other pg pr data hp =>
    refine ⟨_, .inr (.other pg pr data (by rw [cforeign_dropStores, S.prot]; exact hp)), ?_, ?_, S.tl, S.run⟩
    · exact congrArg (fun y : St => { y with vm := s'.σ.vm.foreign pg pr data }) S.σ
    · show (fun q => if q = pg then pr else s'.σ.vm.prot q) = fun q => if q = pg then pr else s.σ.vm.prot q
      rw [S.prot]

/-- The calls in progress look at memory only to find it overwritten. -/
theorem WStep.blind {h1 : List CEv} {s1 : CSys} (hB : ∀ t c P, s.run t = some (c, P) → P.Blind) (st : WStep ro ar calm h s h1 s1) :
    ∀ t c P, s1.run t = some (c, P) → P.Blind := by
  intro u c' P e
  cases st with
  | invoke t c b hi hok hl =>
    unfold upd at e
    simp only at e
    split at e
    · cases e; exact Blind.prog _ _ _
    · exact hB u c' P e
  | @step t c β l f k hc ch he σ' tl' b hf =>
    unfold upd at e
    simp only at e
    split at e
    · cases e; exact (hB t _ _ hc).act.2 b
    · exact hB u c' P e
  | ret t hc =>
    unfold upd at e
    simp only at e
    split at e
    · cases e
    · exact hB u c' P e
  | fork => cases e
  | _ => exact hB u c' P e

/-- Every execution with stray stores is mirrored by one without. -/
theorem WReach.shadow (hg : Good g ar) (r : WReach g ro ar calm h s) :
    (∃ s', CReach g ro ar calm (dropStores h) s' ∧ Shadow s s') ∧ ∀ t c P, s.run t = some (c, P) → P.Blind := by
  have key : ∀ {h h1 : List CEv} {s s1 : CSys}, ((∃ s', CReach g ro ar calm (dropStores h) s' ∧ Shadow s s') ∧ ∀ t c P, s.run t = some (c, P) → P.Blind) →
      WStep ro ar calm h s h1 s1 → (∃ s', CReach g ro ar calm (dropStores h1) s' ∧ Shadow s1 s') ∧ ∀ t c P, s1.run t = some (c, P) → P.Blind := by
    rintro h h1 s s1 ⟨⟨s', r', S⟩, hB⟩ st
    obtain ⟨s1', h2, S'⟩ := st.mirror hg r' S hB
    refine ⟨⟨s1', ?_, S'⟩, st.blind hB⟩
    rcases h2 with ⟨x, v, rfl, _, rfl⟩ | h2
    · exact r'
    · exact r'.next h2
  induction r with
  | init h htl => exact ⟨⟨_, .init h htl, rfl, rfl, rfl, rfl⟩, fun _ _ _ e => by cases e⟩
  | invoke r t c b hi hok hl ih => exact key ih (.invoke t c b hi hok hl)
  | step r t hc he hf ih => exact key ih (.step t hc he hf)
  | ret r t hc ih => exact key ih (.ret t hc)
  | store r x v ih => exact key ih (.store x v)
  | errno r t e hi ih => exact key ih (.errno t e hi)
  | fork r t hi ih => exact key ih (.fork t hi)
  | other r pg pr data hp ih => exact key ih (.other pg pr data hp)

/-- Running a program to its end. -/
theorem Prog.Blind.run {α ι : Type} {P : Prog α} (h : P.Blind) (chs : Nat → Choice) (σ : St) (tl : Tl) (v : ι → Vm) (pr : Nat → Prot) (hv : ∀ i, (v i).prot = pr) :
    Res.Blind (fun a => ∃ (σ1 : St) (w : ι → Vm) (y : Tl × α) , a = (fun i => ({ σ1 with vm := w i }, y)) ∧ ∃ pr, ∀ i, (w i).prot = pr)
      fun i => P.run chs { σ with vm := v i } tl := by
  induction P generalizing chs σ tl v pr with
  | ret a => exact .ok _ ⟨σ, v, (tl, a), rfl, pr, hv⟩
  | act f k ih =>
    unfold Prog.run
    refine Res.Blind.strict (fun i r => match r with
      | .ok (σ, tl, b) => (k b).run (fun n => chs (n + 1)) σ tl
      | .fatal m => .fatal m
      | .segv => .segv
      | .ub w => .ub w
      | .hang => .hang) (h.act.1.blind (chs 0) σ tl v pr hv) ?_ (fun _ _ => rfl) (fun _ => rfl) (fun _ _ => rfl) fun _ => rfl
    rintro _ ⟨σ1, w, ⟨tl1, b⟩, rfl, B⟩
    obtain ⟨pr1, h1⟩ := B.prot
    exact ih b (h.act.2 b) _ σ1 tl1 w pr1 h1

/-- What `malloc_usable_size` returns, if it does, does not depend on the stray stores. -/
theorem Shadow.usable {s' : CSys} (hg : Good g ar) (S : Shadow s s') (r : CReach g ro ar calm h s') {p u : Nat} {i : Info} (hl : (hold h).live p = some i)
    (hu : Usable ro s.σ p u) : Usable ro s'.σ p u := by
  obtain ⟨⟨u', hu'⟩, _⟩ := c36_usable_partial hg r hl
  obtain ⟨tl1, e1⟩ := hu
  obtain ⟨tl2, e2⟩ := hu'
  have h1 := (Blind.hUsableSize ro p).run (fun _ => Choice.quiet) s.σ ⟨0, false⟩ (fun b : Bool => if b then s.σ.vm else s'.σ.vm) s.σ.vm.prot
    (fun b => by cases b; exact S.prot; rfl)
  rw [S.σ] at e2
  generalize hF : (fun b : Bool => (HM.hUsableSize ro p).run (fun _ => Choice.quiet) { s.σ with vm := if b then s.σ.vm else s'.σ.vm } ⟨0, false⟩) = F at h1
  have hT : F true = .ok (s.σ, tl1, u) := (congrFun hF true).symm.trans e1
  have hE : F false = .ok (_, tl2, u') := (congrFun hF false).symm.trans e2
  suffices u = u' by
    subst this
    exact ⟨tl2, by rw [S.σ]; exact e2⟩
  cases h1 with
  | ok a h =>
    obtain ⟨σ1, w, ⟨tl3, y⟩, rfl, _⟩ := h
    simp only [Res.ok.injEq, Prod.mk.injEq] at hT hE
    exact hT.2.2.symm.trans hE.2.2
  | corrupt b hm h =>
    cases b
    · rw [hE] at h; cases h
    · rw [hT] at h; cases h
  | fatal m => cases hT
  | segv => cases hT
  | ub m => cases hT
  | hang => cases hT

end

end HM
