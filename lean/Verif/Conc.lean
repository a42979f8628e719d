import Verif.Seq
/-
Executions in which the calls of any number of threads are interleaved. A call consists of the actions of its program
(`Call.prog`): a section in which a lock is held, or a system call. Any number of actions of other threads, stores by the
application, forks and mappings made or released by others than the allocator may come between two actions of a call.

Simplifications: a section in which a lock is held is a single action (Fine.lean lets sections overlap; see C51); the rest of what a call does between its actions
is either local to the thread or (for the contents of blocks) not observed by others. A block is not used by the
application, nor passed to another call, while a call that was given it is in progress; for `malloc_usable_size` and
`malloc_object_size` this is more than C requires (Shared.lean drops it).
-/
namespace HM

/-- What the application observes: thread `t` begins the call `c`, to which it lends the block `b` (0: none); the call
returns; the application stores a byte; a thread sets its errno; page `pg` is changed by someone else than the allocator,
who has it mapped afterwards (`mapped`) or not; thread `t` forks, and we follow the child. -/
inductive CEv where
  | inv (t : Nat) (c : Call) (b : Nat)
  | ret (t : Nat) (c : Call) (r : Ret)
  | store (x : Nat) (v : BitVec 8)
  | errno (t : Nat) (e : Errno)
  | foreign (pg : Nat) (mapped : Bool)
  | fork (t : Nat)

/-- Who has the blocks: `live` are the blocks the application may use, `hand t` is the block given to the call that is in
progress in thread `t`. -/
structure Hold where
  live : Nat → Option Info
  hand : Nat → Option (Nat × Info)

/-- The block that the application gets (back) when the call `c`, to which the block `hd` was given, returns `r`. -/
def Call.gives (hd : Option (Nat × Info)) (r : Ret) : Call → Option (Nat × Info)
  | .free _ => none
  | .freeSized _ _ => none
  | .realloc _ n =>
      match r.block with
      | none => hd
      | some q => some (q, ⟨n, match hd with
          | some (p, i) => if q = p then i.align else none
          | none => none⟩)
  | .usableSize _ => hd
  | .objectSize _ => hd
  | c =>
      match c.request, r.block with
      | some i, some q => some (q, i)
      | _, _ => none

/-- Who has the blocks after an event. The child of a fork has the blocks of the application; those given to calls of
other threads of its parent are lost. -/
def Hold.step (H : Hold) : CEv → Hold
  | .inv t _ b => ⟨fun x => if x = b then none else H.live x, fun u => if u = t then (H.live b).map (b, ·) else H.hand u⟩
  | .ret t c r =>
      ⟨fun x =>
        match c.gives (H.hand t) r with
        | some (q, i) => if x = q then some i else H.live x
        | none => H.live x,
       fun u => if u = t then none else H.hand u⟩
  | .fork _ => ⟨H.live, fun _ => none⟩
  | _ => H

/-- Who has the blocks after the history `h` (latest event first). -/
def hold : List CEv → Hold
  | [] => ⟨fun _ => none, fun _ => none⟩
  | e :: h => (hold h).step e

/-- The pages that others than the allocator have mapped after the history `h` (latest event first). -/
def cforeign : List CEv → Nat → Bool
  | [] => fun _ => false
  | .foreign pg m :: h => fun q => if q = pg then m else cforeign h q
  | _ :: h => cforeign h

/-- The system: the shared state, the thread-local states, and the calls in progress with what remains of their programs.
`start t` records the shared state in which the last call of `t` began (it is not used by the code). -/
structure CSys where
  σ : St
  tl : Nat → Tl
  run : Nat → Option (Call × Prog Ret)
  start : Nat → St

/-- An application without memory errors lends block `b` to call `c`. -/
def Lends (ro : Ro) (H : Hold) (σ : St) (b : Nat) : Call → Prop
  | .free p => b = p ∧ (p = 0 ∨ (H.live p).isSome)
  | .freeSized p n => b = p ∧ (p = 0 ∨ H.live p = some ⟨n, none⟩)
  | .realloc p _ => b = p ∧ (p = 0 ∨ ∃ i, H.live p = some i ∧ ¬ OverAligned ro.g i)
  | .usableSize p => b = p ∧ (p = 0 ∨ (H.live p).isSome)
  | .objectSize x => (x = 0 ∧ b = 0) ∨ ((H.live b).isSome ∧ ∃ u, Usable ro σ b u ∧ b ≤ x ∧ x < b + u)
  | _ => b = 0

/-- The call does not ask for an alignment above the page size. -/
def Call.Plain : Call → Prop
  | .posixMemalign al _ | .alignedAlloc al _ => al ≤ 4096
  | _ => True

/-- The choices of the environment that are considered while call `c` is in progress: as in `Env`, and, if the call asks for
an alignment above the page size, the release of the tail of the mapping does not fail with ENOMEM (see
`c36_lead_unmapped_twice`). -/
def CEnv (calm : Bool) (c : Call) (ch : Choice) : Prop := Env calm ch ∧ (ch.trailUnmap = .enomem → c.Plain)

/-- `f` with the value at `t` replaced. -/
def upd {α : Type _} (f : Nat → α) (t : Nat) (a : α) : Nat → α := fun u => if u = t then a else f u

/-- The states that are reachable from a successful initialisation by an application without memory errors, with the
history that leads there. -/
inductive CReach (g : Cfg) (ro : Ro) (ar : Nat → Nat) (calm : Bool) : List CEv → CSys → Prop where
  | init {σ : St} {tl : Nat → Tl} (h : Initialised g ro σ) (htl : ∀ t, (tl t).unsealed = false) :
      CReach g ro ar calm [] ⟨σ, tl, fun _ => none, fun _ => σ⟩
  /-- Thread `t` begins a call. -/
  | invoke {h : List CEv} {s : CSys} (r : CReach g ro ar calm h s) (t : Nat) (c : Call) (b : Nat) (hi : s.run t = none) (hok : c.Ok)
      (hl : Lends ro (hold h) s.σ b c) :
      CReach g ro ar calm (.inv t c b :: h) ⟨s.σ, s.tl, upd s.run t (some (c, c.prog ro (ar t))), upd s.start t s.σ⟩
  /-- Thread `t` performs the next action of its call. -/
  | step {h : List CEv} {s : CSys} (r : CReach g ro ar calm h s) (t : Nat) {c : Call} {β : Type}
      {l : Option Sect} {f : Choice → St → Tl → Res (St × Tl × β)} {k : β → Prog Ret} (hc : s.run t = some (c, .act (l := l) f k)) {ch : Choice} (he : CEnv calm c ch)
      {σ' : St} {tl' : Tl} {b : β} (hf : f ch s.σ (s.tl t) = .ok (σ', tl', b)) :
      CReach g ro ar calm h ⟨σ', upd s.tl t tl', upd s.run t (some (c, k b)), s.start⟩
  /-- The call of thread `t` returns. -/
  | ret {h : List CEv} {s : CSys} (r : CReach g ro ar calm h s) (t : Nat) {c : Call} {x : Ret} (hc : s.run t = some (c, .ret x)) :
      CReach g ro ar calm (.ret t c x :: h) ⟨s.σ, s.tl, upd s.run t none, s.start⟩
  /-- The application stores a byte to a block that it has. -/
  | store {h : List CEv} {s : CSys} (r : CReach g ro ar calm h s) (x : Nat) (v : BitVec 8) {p u : Nat} (hp : ((hold h).live p).isSome)
      (hu : Usable ro s.σ p u) (h1 : p ≤ x) (h2 : x < p + u) :
      CReach g ro ar calm (.store x v :: h) ⟨{ s.σ with vm := s.σ.vm.appStore x v }, s.tl, s.run, s.start⟩
  /-- Thread `t`, outside of a call, sets its errno. -/
  | errno {h : List CEv} {s : CSys} (r : CReach g ro ar calm h s) (t : Nat) (e : Errno) (hi : s.run t = none) :
      CReach g ro ar calm (.errno t e :: h) ⟨s.σ, upd s.tl t { s.tl t with errno := e }, s.run, s.start⟩
  /-- Thread `t`, outside of a call, forks; the handlers registered with `pthread_atfork` (h_malloc.c:1148-1183) hold all
  locks while it does, so that no other thread is inside of an action. In the child there are no calls in progress. -/
  | fork {h : List CEv} {s : CSys} (r : CReach g ro ar calm h s) (t : Nat) (hi : s.run t = none) :
      CReach g ro ar calm (.fork t :: h) ⟨s.σ, fun u => if u = t then s.tl t else ⟨0, false⟩, fun _ => none, s.start⟩
  /-- Someone else than the allocator maps a page that is not in use, or changes or releases a page of theirs. -/
  | other {h : List CEv} {s : CSys} (r : CReach g ro ar calm h s) (pg : Nat) (pr : Prot) (data : Nat → BitVec 8)
      (hp : cforeign h pg = true ∨ s.σ.vm.prot pg = .unmapped) :
      CReach g ro ar calm (.foreign pg (pr != .unmapped) :: h) ⟨{ s.σ with vm := s.σ.vm.foreign pg pr data }, s.tl, s.run, s.start⟩

/-- One step of the system, as in `CReach`, from one state with its history to the next. -/
inductive CStep (ro : Ro) (ar : Nat → Nat) (calm : Bool) (h : List CEv) (s : CSys) : List CEv → CSys → Prop where
  | invoke (t : Nat) (c : Call) (b : Nat) (hi : s.run t = none) (hok : c.Ok) (hl : Lends ro (hold h) s.σ b c) :
      CStep ro ar calm h s (.inv t c b :: h) ⟨s.σ, s.tl, upd s.run t (some (c, c.prog ro (ar t))), upd s.start t s.σ⟩
  | step (t : Nat) {c : Call} {β : Type} {l : Option Sect} {f : Choice → St → Tl → Res (St × Tl × β)} {k : β → Prog Ret}
      (hc : s.run t = some (c, .act (l := l) f k)) {ch : Choice} (he : CEnv calm c ch) {σ' : St} {tl' : Tl} {b : β} (hf : f ch s.σ (s.tl t) = .ok (σ', tl', b)) :
      CStep ro ar calm h s h ⟨σ', upd s.tl t tl', upd s.run t (some (c, k b)), s.start⟩
  | ret (t : Nat) {c : Call} {x : Ret} (hc : s.run t = some (c, .ret x)) :
      CStep ro ar calm h s (.ret t c x :: h) ⟨s.σ, s.tl, upd s.run t none, s.start⟩
  | store (x : Nat) (v : BitVec 8) {p u : Nat} (hp : ((hold h).live p).isSome) (hu : Usable ro s.σ p u) (h1 : p ≤ x) (h2 : x < p + u) :
      CStep ro ar calm h s (.store x v :: h) ⟨{ s.σ with vm := s.σ.vm.appStore x v }, s.tl, s.run, s.start⟩
  | errno (t : Nat) (e : Errno) (hi : s.run t = none) :
      CStep ro ar calm h s (.errno t e :: h) ⟨s.σ, upd s.tl t { s.tl t with errno := e }, s.run, s.start⟩
  | fork (t : Nat) (hi : s.run t = none) :
      CStep ro ar calm h s (.fork t :: h) ⟨s.σ, fun u => if u = t then s.tl t else ⟨0, false⟩, fun _ => none, s.start⟩
  | other (pg : Nat) (pr : Prot) (data : Nat → BitVec 8) (hp : cforeign h pg = true ∨ s.σ.vm.prot pg = .unmapped) :
      CStep ro ar calm h s (.foreign pg (pr != .unmapped) :: h) ⟨{ s.σ with vm := s.σ.vm.foreign pg pr data }, s.tl, s.run, s.start⟩

/-- Any number of steps. -/
inductive CSteps (ro : Ro) (ar : Nat → Nat) (calm : Bool) (h0 : List CEv) (s0 : CSys) : List CEv → CSys → Prop where
  | refl : CSteps ro ar calm h0 s0 h0 s0
  | tail {h h' : List CEv} {s s' : CSys} (r : CSteps ro ar calm h0 s0 h s) (st : CStep ro ar calm h s h' s') : CSteps ro ar calm h0 s0 h' s'

/-- The next state is reachable. -/
theorem CReach.next {g : Cfg} {ro : Ro} {ar : Nat → Nat} {calm : Bool} {h h' : List CEv} {s s' : CSys} (r : CReach g ro ar calm h s)
    (st : CStep ro ar calm h s h' s') : CReach g ro ar calm h' s' := by
  cases st with
  | invoke t c b hi hok hl => exact .invoke r t c b hi hok hl
  | step t hc he hf => exact .step r t hc he hf
  | ret t hc => exact .ret r t hc
  | store x v hp hu h1 h2 => exact .store r x v hp hu h1 h2
  | errno t e hi => exact .errno r t e hi
  | fork t hi => exact .fork r t hi
  | other pg pr data hp => exact .other r pg pr data hp

/-- What holds initially and is kept by the steps holds in all reachable states. -/
theorem CReach.induction {g : Cfg} {ro : Ro} {ar : Nat → Nat} {calm : Bool} {M : List CEv → CSys → Prop} {h : List CEv} {s : CSys} (r : CReach g ro ar calm h s)
    (init : ∀ {σ tl}, Initialised g ro σ → (∀ t, (tl t : Tl).unsealed = false) → M [] ⟨σ, tl, fun _ => none, fun _ => σ⟩)
    (step : ∀ {h s h' s'}, CReach g ro ar calm h s → CStep ro ar calm h s h' s' → M h s → M h' s') : M h s := by
  induction r with
  | init hi htl => exact init hi htl
  | invoke r t c b hi hok hl ih => exact step r (.invoke t c b hi hok hl) ih
  | step r t hc he hf ih => exact step r (.step t hc he hf) ih
  | ret r t hc ih => exact step r (.ret t hc) ih
  | store r x v hp hu h1 h2 ih => exact step r (.store x v hp hu h1 h2) ih
  | errno r t e hi ih => exact step r (.errno t e hi) ih
  | fork r t hi ih => exact step r (.fork t hi) ih
  | other r pg pr data hp ih => exact step r (.other pg pr data hp) ih

end HM
