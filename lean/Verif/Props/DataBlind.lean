import Verif.Wild
/-
C72. What the allocator does, does not depend on the data in memory. Given the same calls of the same threads in the same order, the
same random numbers and the same answers of the kernel, two executions in which the program stores different bytes, at different
moments and places, have the same results, up to the moment at which one of them ends with the message that memory was overwritten.
-/
namespace HM

variable {ro : Ro} {ar : Nat → Nat}

/-! ### Executions as functions of what the environment decides -/

/-- What happens next: thread `t` begins a call, performs the next action of its call with the given random numbers and answers of the kernel, or returns
from its call; the program stores a byte anywhere; a thread sets its errno or forks (we follow the child); somebody else maps, changes or releases a page,
which then has the given contents. -/
inductive Move where
  | inv (t : Nat) (c : Call)
  | go (t : Nat) (ch : Choice)
  | ret (t : Nat)
  | store (x : Nat) (v : BitVec 8)
  | errno (t : Nat) (e : Errno)
  | fork (t : Nat)
  | other (pg : Nat) (pr : Prot) (data : Nat → BitVec 8)

/-- What is left of a move if one ignores data. -/
inductive Bare where
  | inv (t : Nat) (c : Call)
  | go (t : Nat) (ch : Choice)
  | ret (t : Nat)
  | errno (t : Nat) (e : Errno)
  | fork (t : Nat)
  | other (pg : Nat) (pr : Prot)

def Move.bare : Move → Option Bare
  | .inv t c => some (.inv t c)
  | .go t ch => some (.go t ch)
  | .ret t => some (.ret t)
  | .store _ _ => none
  | .errno t e => some (.errno t e)
  | .fork t => some (.fork t)
  | .other pg pr _ => some (.other pg pr)

/-- A call that returned: the thread, the call, its result. -/
abbrev Returned := Nat × Call × Ret

/-- How an execution continues, or ends (as in `Res`). -/
inductive Out : Type 1 where
  | ok (x : CSys × List Returned)
  | fatal (m : String)
  | segv
  | ub (w : String)
  | hang

/-- One move, as in `WReach` (Wild), but for any application. A move that is not possible (such as a call of a thread that is in a call) changes nothing. -/
def CSys.move (ro : Ro) (ar : Nat → Nat) (s : CSys) : Move → Out
  | .inv t c =>
      match s.run t with
      | none => .ok (⟨s.σ, s.tl, upd s.run t (some (c, c.prog ro (ar t))), upd s.start t s.σ⟩, [])
      | some _ => .ok (s, [])
  | .go t ch =>
      match s.run t with
      | some (c, .act f k) =>
          match f ch s.σ (s.tl t) with
          | .ok (σ, tl, b) => .ok (⟨σ, upd s.tl t tl, upd s.run t (some (c, k b)), s.start⟩, [])
          | .fatal m => .fatal m
          | .segv => .segv
          | .ub w => .ub w
          | .hang => .hang
      | _ => .ok (s, [])
  | .ret t =>
      match s.run t with
      | some (c, .ret x) => .ok (⟨s.σ, s.tl, upd s.run t none, s.start⟩, [(t, c, x)])
      | _ => .ok (s, [])
  | .store x v => .ok (⟨{ s.σ with vm := s.σ.vm.appStore x v }, s.tl, s.run, s.start⟩, [])
  | .errno t e =>
      match s.run t with
      | none => .ok (⟨s.σ, upd s.tl t { s.tl t with errno := e }, s.run, s.start⟩, [])
      | some _ => .ok (s, [])
  | .fork t =>
      match s.run t with
      | none => .ok (⟨s.σ, fun u => if u = t then s.tl t else ⟨0, false⟩, fun _ => none, s.start⟩, [])
      | some _ => .ok (s, [])
  | .other pg pr data => .ok (⟨{ s.σ with vm := s.σ.vm.foreign pg pr data }, s.tl, s.run, s.start⟩, [])

/-- What follows, if the execution continues. -/
def Out.next (r : Out) (k : CSys → Out) : Out :=
  match r with
  | .ok (s, o) =>
      match k s with
      | .ok (s, o') => .ok (s, o ++ o')
      | .fatal m => .fatal m
      | .segv => .segv
      | .ub w => .ub w
      | .hang => .hang
  | .fatal m => .fatal m
  | .segv => .segv
  | .ub w => .ub w
  | .hang => .hang

/-- A sequence of moves, and what the calls returned. -/
def CSys.moves (ro : Ro) (ar : Nat → Nat) (s : CSys) : List Move → Out
  | [] => .ok (s, [])
  | m :: ms => (s.move ro ar m).next fun s => s.moves ro ar ms

/-- Two executions agree: both go on, the same calls returned the same results, and the states differ in the contents of memory at most; or both end in the
same way; or one of them ends with the message that memory was overwritten. -/
inductive Agree : Out → Out → Prop where
  | ok {s s' : CSys} {o : List Returned} (h : Shadow s s') : Agree (.ok (s, o)) (.ok (s', o))
  | fail {r : Out} (h : ∀ x, r ≠ .ok x) : Agree r r
  | left {r : Out} {m : String} (h : Corrupt m) : Agree (.fatal m) r
  | right {r : Out} {m : String} (h : Corrupt m) : Agree r (.fatal m)

/-! ### Proof -/

theorem Shadow.symm {s s' : CSys} (S : Shadow s s') : Shadow s' s := by
  refine ⟨?_, S.prot.symm, S.tl.symm, S.run.symm⟩
  have := S.σ
  rw [this]

def CSys.Blind (s : CSys) : Prop := ∀ t c P, s.run t = some (c, P) → P.Blind

theorem Shadow.data {s s' : CSys} (S : Shadow s s') {v v' : Vm} (h : v'.prot = v.prot) :
    Shadow ⟨{ s.σ with vm := v }, s.tl, s.run, s.start⟩ ⟨{ s'.σ with vm := v' }, s'.tl, s'.run, s'.start⟩ := by
  refine ⟨?_, h, S.tl, S.run⟩
  show { s'.σ with vm := v' } = { s.σ with vm := v' }
  rw [S.σ]

theorem Shadow.storeL {s s' : CSys} (S : Shadow s s') (x : Nat) (v : BitVec 8) : Shadow ⟨{ s.σ with vm := s.σ.vm.appStore x v }, s.tl, s.run, s.start⟩ s' :=
  (S.data (v := s.σ.vm.appStore x v) (v' := s'.σ.vm) (by rw [appStore_prot]; exact S.prot))

theorem Shadow.storeR {s s' : CSys} (S : Shadow s s') (x : Nat) (v : BitVec 8) : Shadow s ⟨{ s'.σ with vm := s'.σ.vm.appStore x v }, s'.tl, s'.run, s'.start⟩ :=
  (S.data (v := s.σ.vm) (v' := s'.σ.vm.appStore x v) (by rw [appStore_prot]; exact S.prot))

/-- One move that is not a store. -/
theorem move_agree {s s' : CSys} (S : Shadow s s') (hB : s.Blind) {a b : Move} (e : a.bare = b.bare) (h0 : a.bare ≠ none) :
    Agree (s.move ro ar a) (s'.move ro ar b) ∧ ∀ s1 o, s.move ro ar a = .ok (s1, o) → s1.Blind := by
  cases a with
  | store x v => exact absurd rfl h0
  | inv t c =>
    cases b <;> cases e
    simp only [CSys.move, S.run]
    cases hr : s.run t with
    | some x => exact ⟨.ok S, fun s1 o e => by cases e; exact hB⟩
    | none =>
      refine ⟨.ok ⟨S.σ, S.prot, S.tl, rfl⟩, fun s1 o e => ?_⟩
      cases e
      intro u c' P hP
      by_cases hu : u = t
      · have : some (c, c.prog ro (ar t)) = some (c', P) := by rw [← hP]; exact (if_pos hu).symm
        cases this
        exact Blind.prog _ _ _
      · exact hB u c' P (by rw [← hP]; exact (if_neg hu).symm)
  | go t ch =>
    cases b <;> cases e
    simp only [CSys.move, S.run]
    cases hr : s.run t with
    | none => exact ⟨.ok S, fun s1 o e => by cases e; exact hB⟩
    | some x =>
      obtain ⟨c, P⟩ := x
      cases P with
      | ret x => exact ⟨.ok S, fun s1 o e => by cases e; exact hB⟩
      | act f k =>
        obtain ⟨hb, hk⟩ := (hB t c _ hr).act
        have h1 := hb.blind ch s.σ (s.tl t) (fun o : Bool => if o then s.σ.vm else s'.σ.vm) s.σ.vm.prot (fun o => by cases o; exact S.prot; rfl)
        generalize hF : (fun o : Bool => f ch { s.σ with vm := if o then s.σ.vm else s'.σ.vm } (s.tl t)) = F at h1
        have eT : f ch s.σ (s.tl t) = F true := congrFun hF true
        have eE : f ch s'.σ (s'.tl t) = F false := by
          rw [← congrFun hF false, S.tl]; exact congrArg (fun y => f ch y (s.tl t)) S.σ
        simp only [eT, eE]
        cases h1 with
        | ok a h =>
          obtain ⟨σ0, v, ⟨tl', b⟩, rfl, B⟩ := h
          obtain ⟨pr, hp⟩ := B.prot
          refine ⟨.ok ⟨rfl, by show (v false).prot = (v true).prot; rw [hp, hp], by show upd s'.tl t tl' = _; rw [S.tl], rfl⟩, fun s1 o e => ?_⟩
          cases e
          intro u c' P hP
          by_cases hu : u = t
          · have : some (c, k b) = some (c', P) := by rw [← hP]; exact (if_pos hu).symm
            cases this
            exact hk b
          · exact hB u c' P (by rw [← hP]; exact (if_neg hu).symm)
        | fatal m => exact ⟨.fail (by simp), by simp⟩
        | segv => exact ⟨.fail (by simp), by simp⟩
        | ub m => exact ⟨.fail (by simp), by simp⟩
        | hang => exact ⟨.fail (by simp), by simp⟩
        | corrupt o hm h =>
          cases o with
          | true => rw [h]; exact ⟨.left hm, by simp⟩
          | false =>
            rw [h]
            refine ⟨.right hm, fun s1 o e => ?_⟩
            cases hT : F true with
            | ok y =>
              rw [hT] at e
              obtain ⟨σ1, tl1, b⟩ := y
              cases e
              intro u c' P hP
              by_cases hu : u = t
              · have : some (c, k b) = some (c', P) := by rw [← hP]; exact (if_pos hu).symm
                cases this
                exact hk b
              · exact hB u c' P (by rw [← hP]; exact (if_neg hu).symm)
            | fatal m => rw [hT] at e; cases e
            | segv => rw [hT] at e; cases e
            | ub m => rw [hT] at e; cases e
            | hang => rw [hT] at e; cases e
  | ret t =>
    cases b <;> cases e
    simp only [CSys.move, S.run]
    cases hr : s.run t with
    | none => exact ⟨.ok S, fun s1 o e => by cases e; exact hB⟩
    | some x =>
      obtain ⟨c, P⟩ := x
      cases P with
      | act f k => exact ⟨.ok S, fun s1 o e => by cases e; exact hB⟩
      | ret x =>
        refine ⟨.ok ⟨S.σ, S.prot, S.tl, rfl⟩, fun s1 o e => ?_⟩
        cases e
        intro u c' P hP
        by_cases hu : u = t
        · exact absurd ((show upd s.run t none u = none from if_pos hu).symm.trans hP) (by simp)
        · exact hB u c' P (by rw [← hP]; exact (if_neg hu).symm)
  | errno t x =>
    cases b <;> cases e
    simp only [CSys.move, S.run, S.tl]
    cases hr : s.run t with
    | some x => exact ⟨.ok S, fun s1 o e => by cases e; exact hB⟩
    | none => exact ⟨.ok ⟨S.σ, S.prot, rfl, rfl⟩, fun s1 o e => by cases e; exact hB⟩
  | fork t =>
    cases b <;> cases e
    simp only [CSys.move, S.run, S.tl]
    cases hr : s.run t with
    | some x => exact ⟨.ok S, fun s1 o e => by cases e; exact hB⟩
    | none => exact ⟨.ok ⟨S.σ, S.prot, rfl, rfl⟩, fun s1 o e => by cases e; intro _ _ _ e; cases e⟩
  | other pg pr data =>
    cases b <;> cases e
    refine ⟨.ok (S.data ?_), fun s1 o e => by cases e; exact hB⟩
    simp only [Vm.foreign, S.prot]

theorem Agree.next {r r' : Out} (h : Agree r r') {k k' : CSys → Out} (hk : ∀ s s' o, r = .ok (s, o) → Shadow s s' → Agree (k s) (k' s')) :
    Agree (r.next k) (r'.next k') := by
  cases h with
  | ok S =>
    rename_i s s' o
    have := hk s s' o rfl S
    simp only [Out.next]
    generalize k s = x at this
    generalize k' s' = y at this
    cases this with
    | ok S => exact .ok S
    | fail hf =>
      cases x with
      | ok y => exact absurd rfl (hf y)
      | _ => exact .fail (by simp)
    | left hm => exact .left hm
    | right hm => exact .right hm
  | fail hf =>
    cases r with
    | ok y => exact absurd rfl (hf y)
    | _ => exact .fail (by simp [Out.next])
  | left hm => exact .left hm
  | right hm => exact .right hm

theorem Out.next_nil (s : CSys) (k : CSys → Out) : (Out.ok (s, [])).next k = k s := by
  simp only [Out.next]
  cases k s <;> rfl

theorem moves_store {s : CSys} {x : Nat} {v : BitVec 8} {ms : List Move} : s.moves ro ar (.store x v :: ms) =
    CSys.moves ro ar ⟨{ s.σ with vm := s.σ.vm.appStore x v }, s.tl, s.run, s.start⟩ ms :=
  Out.next_nil _ _

theorem moves_agree : ∀ (A B : List Move) (s s' : CSys), Shadow s s' → s.Blind → A.filterMap Move.bare = B.filterMap Move.bare →
    Agree (s.moves ro ar A) (s'.moves ro ar B) := by
  intro A
  induction A with
  | nil =>
    intro B
    induction B with
    | nil => exact fun _ _ S _ _ => .ok S
    | cons b B ih =>
      intro s s' S hB e
      cases b with
      | store x v => rw [moves_store]; exact ih _ _ (S.storeR x v) hB e
      | _ => cases e
  | cons a A ihA =>
    intro B
    by_cases ha : a.bare = none
    · cases a with
      | store x v =>
        intro s s' S hB e
        rw [moves_store]
        exact ihA B _ _ (S.storeL x v) hB e
      | _ => cases ha
    · induction B with
      | nil =>
        intro s s' S hB e
        rw [List.filterMap_cons] at e
        cases h : a.bare with
        | none => exact absurd h ha
        | some y => rw [h] at e; cases e
      | cons b B ih =>
        intro s s' S hB e
        by_cases hb : b.bare = none
        · cases b with
          | store x v => rw [moves_store]; exact ih _ _ (S.storeR x v) hB e
          | _ => cases hb
        · have e' : a.bare = b.bare ∧ A.filterMap Move.bare = B.filterMap Move.bare := by
            cases h1 : a.bare with
            | none => exact absurd h1 ha
            | some y =>
              cases h2 : b.bare with
              | none => exact absurd h2 hb
              | some z =>
                rw [List.filterMap_cons, List.filterMap_cons, h1, h2] at e
                simp only [List.cons.injEq] at e
                exact ⟨by rw [e.1], e.2⟩
          obtain ⟨k1, k2⟩ := move_agree (ro := ro) (ar := ar) S hB e'.1 ha
          exact k1.next fun s1 s1' o h1 S1 => ihA B _ _ S1 (k2 s1 o h1) e'.2

/-- C72. Two executions `A`, `B` that begin in states between calls which differ in the contents of memory at most, with the same calls of the same threads in the same
order, the same random numbers and the same answers of the kernel, but with any bytes stored anywhere by the program, and any contents of the pages that others map:
as long as neither ends with the message that memory was overwritten, every call returns the same in both, and the same memory is mapped in the same way. -/
theorem c72_data (A B : List Move) {s s' : CSys} (S : Shadow s s') (h0 : ∀ t, s.run t = none) (e : A.filterMap Move.bare = B.filterMap Move.bare) :
    Agree (s.moves ro ar A) (s'.moves ro ar B) :=
  moves_agree A B _ _ S (fun t c P h => by rw [h0 t] at h; cases h) e

/-- In other words: if the first execution goes on, then the second one goes on as well, with the same results, or reports that memory was overwritten. -/
theorem c72_outcome (A B : List Move) {s s' s1 : CSys} {o : List Returned} (S : Shadow s s') (h0 : ∀ t, s.run t = none)
    (e : A.filterMap Move.bare = B.filterMap Move.bare) (h : s.moves ro ar A = .ok (s1, o)) :
    (∃ s2, s'.moves ro ar B = .ok (s2, o) ∧ s2.σ = { s1.σ with vm := s2.σ.vm } ∧ s2.σ.vm.prot = s1.σ.vm.prot ∧ s2.tl = s1.tl) ∨
    ∃ m, s'.moves ro ar B = .fatal m ∧ (m = "detected write after free" ∨ m = "canary corrupted") := by
  have k := c72_data (ro := ro) (ar := ar) A B S h0 e
  rw [h] at k
  generalize s'.moves ro ar B = r at k
  cases k with
  | ok S => exact .inl ⟨_, rfl, S.σ, S.prot, S.tl⟩
  | fail hf => exact absurd rfl (hf _)
  | right hm => exact .inr ⟨_, rfl, hm⟩

/-! ### These are the executions of `WReach` -/

theorem moves_snoc {A : List Move} {m : Move} : ∀ {s s1 s2 : CSys} {o o' : List Returned}, s.moves ro ar A = .ok (s1, o) → s1.move ro ar m = .ok (s2, o') →
    ∀ {o2 : List Returned}, o ++ o' = o2 → s.moves ro ar (A ++ [m]) = .ok (s2, o2) := by
  induction A with
  | nil =>
    intro s s1 s2 o o' e h o2 ho
    subst ho
    cases e
    show (s.move ro ar m).next _ = _
    rw [h]
    simp [Out.next, CSys.moves]
  | cons a A ih =>
    intro s s1 s2 o o' e h o2 ho
    subst ho
    simp only [CSys.moves, Out.next, List.cons_append] at e ⊢
    cases ha : s.move ro ar a with
    | ok y =>
      obtain ⟨s3, o3⟩ := y
      rw [ha] at e
      simp only at e ⊢
      cases hA : s3.moves ro ar A with
      | ok z =>
        obtain ⟨s4, o4⟩ := z
        rw [hA] at e
        cases e
        rw [ih hA h rfl]
        simp
      | fatal m => rw [hA] at e; cases e
      | segv => rw [hA] at e; cases e
      | ub m => rw [hA] at e; cases e
      | hang => rw [hA] at e; cases e
    | fatal m => rw [ha] at e; cases e
    | segv => rw [ha] at e; cases e
    | ub m => rw [ha] at e; cases e
    | hang => rw [ha] at e; cases e

/-- The calls that returned in a history, in the order in which they did. -/
def returned (h : List CEv) : List Returned := h.reverse.filterMap fun
  | .ret t c x => some (t, c, x)
  | _ => none

/-- Every execution of an application with any number of threads, whose stores may go anywhere (`WReach`; in particular every execution of a correct application), is
given by a sequence of moves from an initialised state. -/
theorem WReach.moves {g : Cfg} {calm : Bool} {h : List CEv} {s : CSys} (r : WReach g ro ar calm h s) :
    ∃ (σ : St) (tl : Nat → Tl) (A : List Move), Initialised g ro σ ∧ CSys.moves ro ar ⟨σ, tl, fun _ => none, fun _ => σ⟩ A = .ok (s, returned h) := by
  induction r with
  | init h htl => exact ⟨_, _, [], h, rfl⟩
  | invoke r t c b hi hok hl ih =>
    obtain ⟨σ, tl, A, h1, h2⟩ := ih
    exact ⟨σ, tl, A ++ [.inv t c], h1, moves_snoc (o' := []) h2 (by simp only [CSys.move, hi]) (by simp [returned])⟩
  | step r t hc he hf ih =>
    rename_i ch _ _ _
    obtain ⟨σ, tl, A, h1, h2⟩ := ih
    exact ⟨σ, tl, A ++ [.go t ch], h1, moves_snoc (o' := []) h2 (by simp only [CSys.move, hc, hf]) (by simp [returned])⟩
  | ret r t hc ih =>
    rename_i c x
    obtain ⟨σ, tl, A, h1, h2⟩ := ih
    exact ⟨σ, tl, A ++ [.ret t], h1, moves_snoc (o' := [(t, c, x)]) h2 (by simp only [CSys.move, hc]) (by simp [returned])⟩
  | store r x v ih =>
    obtain ⟨σ, tl, A, h1, h2⟩ := ih
    exact ⟨σ, tl, A ++ [.store x v], h1, moves_snoc (o' := []) h2 (by simp only [CSys.move]) (by simp [returned])⟩
  | errno r t e hi ih =>
    obtain ⟨σ, tl, A, h1, h2⟩ := ih
    exact ⟨σ, tl, A ++ [.errno t e], h1, moves_snoc (o' := []) h2 (by simp only [CSys.move, hi]) (by simp [returned])⟩
  | fork r t hi ih =>
    obtain ⟨σ, tl, A, h1, h2⟩ := ih
    exact ⟨σ, tl, A ++ [.fork t], h1, moves_snoc (o' := []) h2 (by simp only [CSys.move, hi]) (by simp [returned])⟩
  | other r pg pr data hp ih =>
    obtain ⟨σ, tl, A, h1, h2⟩ := ih
    exact ⟨σ, tl, A ++ [.other pg pr data], h1, moves_snoc (o' := []) h2 (by simp only [CSys.move]) (by simp [returned])⟩

/-! ### Examples -/

/-- The addresses that the calls returned. -/
def Out.results : Out → Option (List Nat)
  | .ok (_, o) => some (o.map fun x => x.2.2.toNat)
  | _ => none

def Out.message : Out → Option String
  | .fatal m => some m
  | _ => none

/-- Thread 0 allocates, thread 1 allocates as well; with `data` in between. Then thread 0 frees its block, and allocates another one. -/
def exMoves (data : List Move) : List Move :=
  [.inv 0 (.malloc 100)] ++ List.replicate 9 (.go 0 (exAt 0)) ++ [.inv 1 (.malloc 100), .ret 0] ++ data ++ List.replicate 9 (.go 1 (exAt 0)) ++ [.ret 1, .inv 0 (.free exA)] ++
    List.replicate 9 (.go 0 (exAt 0)) ++ [.ret 0, .inv 0 (.malloc 100)] ++ List.replicate 9 (.go 0 (exAt 0)) ++ [.ret 0]

def exData (data : List Move) : Out := CSys.moves (exRo false true) (fun t => t % 4) ⟨exSt, fun _ => ⟨0, false⟩, fun _ => none, fun _ => exSt⟩ (exMoves data)

/-- With and without data in the block the four calls return the same; the memory differs. -/
example : (exMoves [.store exA 7#8]).filterMap Move.bare = (exMoves []).filterMap Move.bare ∧
    (exData [.store exA 7#8]).results = (exData []).results := ⟨rfl, by decide +kernel⟩

/-- The results are those addresses (the free gives none). -/
example : (exData [.store exA 7#8]).results = some [exA, 4947802329088, 0, exA + 112] := by decide +kernel

/-- A store behind the block is reported, if it hits the canary. -/
example : (exMoves [.store (exA + 104) 7#8]).filterMap Move.bare = (exMoves []).filterMap Move.bare ∧
    (exData [.store (exA + 104) 7#8]).message = some "canary corrupted" ∧ Corrupt "canary corrupted" := ⟨rfl, by decide +kernel, .inr rfl⟩

end HM
