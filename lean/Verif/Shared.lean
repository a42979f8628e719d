import Verif.Conc
/-
Queries about a block that other threads go on using. In Conc.lean a block that is passed to `malloc_usable_size` or
`malloc_object_size` is not used by anybody else until the call returns. Here these calls can be made by any number of threads at
the same time about the same block, while the application stores to the block; all that is asked of the application is what
C asks: the block is not passed to `free`, `free_sized` or `realloc` before the query has returned.
-/
namespace HM

/-- A query in progress in a thread: the call, what remains of its program, and the block it is about (0: none). -/
structure Ask where
  call : Call
  prog : Prog Ret
  blk : Nat

/-- The queries considered here: h_malloc.c:1760-1790 `malloc_usable_size`, h_malloc.c:1792-1847 `malloc_object_size`. -/
def Call.asks : Call → Prop
  | .usableSize _ => True
  | .objectSize _ => True
  | _ => False

/-- The application may do `e` while the queries `q` are in progress: a thread does one thing at a time, and a block is not
given to a call (which could free it) while it is asked about. -/
def Permits (q : Nat → Option Ask) : CEv → Prop
  | .inv t _ b => q t = none ∧ ∀ u a, q u = some a → a.blk ≠ b ∨ b = 0
  | .errno t _ => q t = none
  | _ => True

/-- As `CReach`, with queries about blocks that the application keeps. `q` are the queries in progress. -/
inductive QReach (g : Cfg) (ro : Ro) (ar : Nat → Nat) (calm : Bool) : List CEv → CSys → (Nat → Option Ask) → Prop where
  | init {σ : St} {tl : Nat → Tl} (h : Initialised g ro σ) (htl : ∀ t, (tl t).unsealed = false) :
      QReach g ro ar calm [] ⟨σ, tl, fun _ => none, fun _ => σ⟩ fun _ => none
  /-- A step as in Conc.lean, other than a fork. -/
  | base {h h' : List CEv} {s s' : CSys} {q : Nat → Option Ask} (r : QReach g ro ar calm h s q) (st : CStep ro ar calm h s h' s')
      (hp : ∀ e, h' = e :: h → Permits q e) (hf : ∀ t, h' ≠ .fork t :: h) : QReach g ro ar calm h' s' q
  /-- A fork; the child has no queries in progress. -/
  | fork {h h' : List CEv} {s s' : CSys} {q : Nat → Option Ask} (r : QReach g ro ar calm h s q) {t : Nat} (st : CStep ro ar calm h s h' s')
      (hf : h' = .fork t :: h) (hi : q t = none) : QReach g ro ar calm h' s' fun _ => none
  /-- Thread `t` asks about the block `b`, which the application keeps. -/
  | ask {h : List CEv} {s : CSys} {q : Nat → Option Ask} (r : QReach g ro ar calm h s q) (t : Nat) (c : Call) (b : Nat) (hi : s.run t = none)
      (hq : q t = none) (hc : c.asks) (hok : c.Ok) (hl : Lends ro (hold h) s.σ b c) :
      QReach g ro ar calm h s (upd q t (some ⟨c, c.prog ro (ar t), b⟩))
  /-- Thread `t` performs the next action of its query. -/
  | step {h : List CEv} {s : CSys} {q : Nat → Option Ask} (r : QReach g ro ar calm h s q) (t : Nat) {c : Call} {blk : Nat} {β : Type}
      {l : Option Sect} {f : Choice → St → Tl → Res (St × Tl × β)} {k : β → Prog Ret} (hc : q t = some ⟨c, .act (l := l) f k, blk⟩) {ch : Choice} (he : Env calm ch)
      {σ' : St} {tl' : Tl} {b : β} (hf : f ch s.σ (s.tl t) = .ok (σ', tl', b)) :
      QReach g ro ar calm h ⟨σ', upd s.tl t tl', s.run, s.start⟩ (upd q t (some ⟨c, k b, blk⟩))
  /-- The query of thread `t` returns. -/
  | answer {h : List CEv} {s : CSys} {q : Nat → Option Ask} (r : QReach g ro ar calm h s q) (t : Nat) {c : Call} {x : Ret} {blk : Nat}
      (hc : q t = some ⟨c, .ret x, blk⟩) : QReach g ro ar calm h s (upd q t none)

end HM
