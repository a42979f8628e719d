import Verif.Conc
import Verif.Cell
/-
Calls of several threads whose lock sections overlap in time.

In `CReach` (Conc.lean) a thread executes everything that it does while it holds a lock as one action. Here it takes the lock,
runs for a while, and releases it, and meanwhile the others go on. While the section runs

* the parts of the state that it may write (`Sect.upsets`: the metadata of the class, the free memory of its slabs) can hold
  anything at all, and it can change them as often as it likes; nobody is protected from seeing this, except that the others
  cannot take the same lock (h_malloc.c: the mutex of each `struct size_class` at 248 and of `struct region_allocator` at 928;
  see C37 for the locks themselves);
* the section may read each part of the state at a moment of its own: the values it works with need not have been there
  together at any time;
* whatever others write meanwhile, be it in the parts that the section uses, it may read or not.

Its result is that of the model's action for the values read, and at the end the parts that it may write, and all others that
the action changes, hold what the action puts there.

Simplifications. What a section writes on its way is limited by `Sect.upsets`, not derived from the code; that its result
depends on and changes only what it uses is proved. Pages of slabs are not unmapped on the way (the code protects them and
replaces their mappings in place: memory.c:45-52, 62-80, 106-112). The actions without a lock, that is single system calls and
the clearing and copying of the contents of blocks by a thread which alone holds them, are still atomic. Memory is
sequentially consistent.
-/
namespace HM

/-- The two sections hold the same lock: that of the same class of the same arena, or that of the region allocator. -/
def Sect.sameLock : Sect → Sect → Prop
  | .cls a c _, .cls a' c' _ => a = a' ∧ c = c'
  | .regions _ _, .regions _ _ => True
  | _, _ => False

/-- There is such a lock. -/
def Sect.Exists (ro : Ro) : Sect → Prop
  | .cls a c _ => a < ro.g.nArena ∧ c < nClasses ro.g
  | .regions _ _ => True

/-- A running section: what it is, the state as it would be now if it had not written anything (`now`), and the earlier
values of this since it took the lock (`past`). -/
structure FSec where
  sect : Sect
  now : St
  past : List St

/-- The parts of the state that may be in disorder because of the section. -/
def FSec.upsets (ro : Ro) (x : FSec) : Cell → Prop := x.sect.upsets ro x.now

/-- The values that the section may have read: of each part of the state, one that it had at some moment since the lock was
taken. -/
def FSec.sees (x : FSec) (v : St) : Prop := ∀ c, ∃ ψ ∈ x.now :: x.past, v.agree ψ c

/-- Someone else changes the state from `σ` to `σ'`. -/
noncomputable def FSec.meanwhile (x : FSec) (σ σ' : St) : FSec :=
  ⟨x.sect, x.now.patch (fun c => ¬ σ'.agree σ c) σ', x.now :: x.past⟩

/-- The system: the shared state, as it is in memory, the thread-local states, the calls in progress with what remains of
their programs, and the running sections. -/
structure FineSys where
  σ : St
  tl : Nat → Tl
  run : Nat → Option (Call × Prog Ret)
  sec : Nat → Option FSec

/-- The running sections when the state becomes `σ'`. -/
noncomputable def FineSys.meanwhile (s : FineSys) (σ' : St) : Nat → Option FSec := fun u => (s.sec u).map (·.meanwhile s.σ σ')

/-- `σ` is the state as it would be if the running sections had not written anything. -/
def Settled (ro : Ro) (s : FineSys) (σ : St) : Prop :=
  (∀ t x c, s.sec t = some x → x.upsets ro c → σ.agree x.now c) ∧
  ∀ c, (∀ t x, s.sec t = some x → ¬ x.upsets ro c) → σ.agree s.σ c

/-- The states that are reachable from a successful initialisation by an application without memory errors, with the
history that leads there. What the application may do with its blocks does not depend on the middle of a section: it is
judged by the settled state, as in `CReach`. -/
inductive FReach (g : Cfg) (ro : Ro) (ar : Nat → Nat) (calm : Bool) : List CEv → FineSys → Prop where
  | init {σ : St} {tl : Nat → Tl} (h : Initialised g ro σ) (htl : ∀ t, (tl t).unsealed = false) :
      FReach g ro ar calm [] ⟨σ, tl, fun _ => none, fun _ => none⟩
  /-- Thread `t` begins a call. -/
  | invoke {h : List CEv} {s : FineSys} (r : FReach g ro ar calm h s) (t : Nat) (c : Call) (b : Nat) (hi : s.run t = none) (hok : c.Ok)
      {v : St} (hv : Settled ro s v) (hl : Lends ro (hold h) v b c) :
      FReach g ro ar calm (.inv t c b :: h) ⟨s.σ, s.tl, upd s.run t (some (c, c.prog ro (ar t))), s.sec⟩
  /-- Thread `t` takes the lock for its next section. -/
  | acquire {h : List CEv} {s : FineSys} (r : FReach g ro ar calm h s) (t : Nat) {c : Call} {β : Type} {x : Sect}
      {f : Choice → St → Tl → Res (St × Tl × β)} {k : β → Prog Ret} (hc : s.run t = some (c, .act (l := some x) f k))
      (hs : s.sec t = none) (hx : x.Exists ro) (hl : ∀ u y, s.sec u = some y → ¬ y.sect.sameLock x) :
      FReach g ro ar calm h ⟨s.σ, s.tl, s.run, upd s.sec t (some ⟨x, s.σ, []⟩)⟩
  /-- The section of thread `t` writes something. -/
  | write {h : List CEv} {s : FineSys} (r : FReach g ro ar calm h s) (t : Nat) {x : FSec} (hx : s.sec t = some x) (σ' : St)
      (hd : ∀ c, ¬ σ'.agree s.σ c → x.upsets ro c) (hm : ∀ pg, σ'.vm.prot pg = .unmapped → s.σ.vm.prot pg = .unmapped) :
      FReach g ro ar calm h ⟨σ', s.tl, s.run, upd (s.meanwhile σ') t (some x)⟩
  /-- The section of thread `t` ends and the lock is released; `v` is what it has read, `τ` is what it makes of it. -/
  | release {h : List CEv} {s : FineSys} (r : FReach g ro ar calm h s) (t : Nat) {c : Call} {β : Type} {l : Sect}
      {f : Choice → St → Tl → Res (St × Tl × β)} {k : β → Prog Ret} (hc : s.run t = some (c, .act (l := some l) f k))
      {x : FSec} (hx : s.sec t = some x) {v : St} (hv : x.sees v) {ch : Choice} (he : CEnv calm c ch)
      {τ : St} {tl' : Tl} {b : β} (hf : f ch v (s.tl t) = .ok (τ, tl', b)) {σ' : St}
      (hσ : σ' = s.σ.patch (fun c => x.upsets ro c ∨ ¬ τ.agree v c) τ) :
      FReach g ro ar calm h ⟨σ', upd s.tl t tl', upd s.run t (some (c, k b)), upd (s.meanwhile σ') t none⟩
  /-- Thread `t` performs an action without a lock. -/
  | plain {h : List CEv} {s : FineSys} (r : FReach g ro ar calm h s) (t : Nat) {c : Call} {β : Type}
      {f : Choice → St → Tl → Res (St × Tl × β)} {k : β → Prog Ret} (hc : s.run t = some (c, .act (l := none) f k)) {ch : Choice} (he : CEnv calm c ch)
      {σ' : St} {tl' : Tl} {b : β} (hf : f ch s.σ (s.tl t) = .ok (σ', tl', b)) :
      FReach g ro ar calm h ⟨σ', upd s.tl t tl', upd s.run t (some (c, k b)), s.meanwhile σ'⟩
  /-- The call of thread `t` returns. -/
  | ret {h : List CEv} {s : FineSys} (r : FReach g ro ar calm h s) (t : Nat) {c : Call} {x : Ret} (hc : s.run t = some (c, .ret x)) :
      FReach g ro ar calm (.ret t c x :: h) ⟨s.σ, s.tl, upd s.run t none, s.sec⟩
  /-- The application stores a byte to a block that it has. -/
  | store {h : List CEv} {s : FineSys} (r : FReach g ro ar calm h s) (x : Nat) (b : BitVec 8) {p u : Nat} (hp : ((hold h).live p).isSome)
      {v : St} (hv : Settled ro s v) (hu : Usable ro v p u) (h1 : p ≤ x) (h2 : x < p + u) {σ' : St} (hσ : σ' = { s.σ with vm := s.σ.vm.appStore x b }) :
      FReach g ro ar calm (.store x b :: h) ⟨σ', s.tl, s.run, s.meanwhile σ'⟩
  /-- Thread `t`, outside of a call, sets its errno. -/
  | errno {h : List CEv} {s : FineSys} (r : FReach g ro ar calm h s) (t : Nat) (e : Errno) (hi : s.run t = none) :
      FReach g ro ar calm (.errno t e :: h) ⟨s.σ, upd s.tl t { s.tl t with errno := e }, s.run, s.sec⟩
  /-- Thread `t`, outside of a call, forks, once the handler `full_lock` registered with `pthread_atfork` (h_malloc.c:1148-1183)
  has taken all locks. In the child there are no calls in progress. -/
  | fork {h : List CEv} {s : FineSys} (r : FReach g ro ar calm h s) (t : Nat) (hi : s.run t = none) (hs : ∀ u, s.sec u = none) :
      FReach g ro ar calm (.fork t :: h) ⟨s.σ, fun u => if u = t then s.tl t else ⟨0, false⟩, fun _ => none, s.sec⟩
  /-- Someone else than the allocator maps a page that is not in use, or changes or releases a page of theirs. -/
  | other {h : List CEv} {s : FineSys} (r : FReach g ro ar calm h s) (pg : Nat) (pr : Prot) (data : Nat → BitVec 8)
      (hp : cforeign h pg = true ∨ s.σ.vm.prot pg = .unmapped) {σ' : St} (hσ : σ' = { s.σ with vm := s.σ.vm.foreign pg pr data }) :
      FReach g ro ar calm (.foreign pg (pr != .unmapped) :: h) ⟨σ', s.tl, s.run, s.meanwhile σ'⟩

end HM
