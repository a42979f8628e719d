import Verif.GhostWrite
import Verif.CellLemmas
/-
Rules for programs: what a thread knows after each action, in spite of the actions of other threads.
-/
namespace HM

variable {ro : Ro} {m : Mode} {t : Nat} {F : Bad → Choice → World → Prop}

/-- `A` stays true while other threads run. -/
def Stable (m : Mode) (ro : Ro) (t : Nat) (A : World → Prop) : Prop := ∀ w1 w2, GInv ro w1 → Rely m ro t w1 w2 → A w1 → A w2

theorem Rely.inv {w w' : World} (h : GInv ro w) (r : Rely m ro t w w') : GInv ro w' := (Rely.trans' h r).inv

theorem Rely.keep {w w' : World} (h : GInv ro w) (r : Rely m ro t w w') {q : Nat} (hq : w.G.blk q = .thr t) : KeepB ro w w' q :=
  ((Rely.trans' h r).same (.thr t) (by simp) rfl).toSameB.keep hq

theorem Rely.blk {w w' : World} (h : GInv ro w) (r : Rely m ro t w w') (q : Nat) : w'.G.blk q = .thr t ↔ w.G.blk q = .thr t :=
  ((Rely.trans' h r).same (.thr t) (by simp) rfl).blk q

theorem Rely.sameP {w w' : World} (h : GInv ro w) (r : Rely m ro t w w') : SameP t w w' :=
  ((Rely.trans' h r).same (.thr t) (by simp) rfl).toSameP

theorem Rely.content {w w' : World} (h : GInv ro w) (r : Rely m ro t w w') : Content ro w → Content ro w' := (Rely.trans' h r).content

theorem Rely.env {w w' : World} (h : GInv ro w) (r : Rely m ro t w w') : w'.G.env = w.G.env := (Rely.trans' h r).delay.env

theorem Rely.delay {w w' : World} (h : GInv ro w) (r : Rely m ro t w w') : Delay ro w w' := (Rely.trans' h r).delay

theorem Rely.calm {w w' : World} (h : GInv ro w) (r : Rely m ro t w w') : w'.G.calm = w.G.calm := (Rely.trans' h r).delay.calm

theorem Rely.seq {w w' : World} (r : Rely m ro t w w') (hm : m = .seq) : w' = w := by subst hm; exact r

theorem Rely.refl {w : World} (h : GInv ro w) : Rely m ro t w w := by
  cases m with
  | seq => rfl
  | conc => exact Trans.refl h

theorem Stable.and {A B : World → Prop} (ha : Stable m ro t A) (hb : Stable m ro t B) : Stable m ro t fun w => A w ∧ B w :=
  fun w1 w2 h r => fun ⟨a, b⟩ => ⟨ha w1 w2 h r a, hb w1 w2 h r b⟩

theorem Stable.seq (A : World → Prop) : Stable m ro t fun w => m = .seq → A w :=
  fun w1 w2 _ r a e => by rw [r.seq e]; exact a e

theorem Stable.inv : Stable m ro t (GInv ro) := fun _ _ h r _ => r.inv h

/-- What thread `t` knows about world `w` when it started in world `w0`: the invariant holds and its blocks outside of `A`
are as before; in sequential runs at most `fr` blocks of each class have been freed, at most `pu.1` regions have entered
the quarantine and at most `pu.2` bytes have been allocated without being counted,
addresses outside of `A` that were no block are none,
and slabs without a block in `A` have not become accessible. -/
structure At (m : Mode) (ro : Ro) (t : Nat) (A : Nat → Prop) (fr : Nat → Nat → Nat) (pu : Nat × Nat) (w0 w : World) : Prop where
  inv : GInv ro w
  blk : ∀ q, ¬ A q → (w.G.blk q = .thr t ↔ w0.G.blk q = .thr t)
  keep : ∀ q, ¬ A q → w0.G.blk q = .thr t → KeepB ro w0 w q
  content : Content ro w0 → Content ro w
  env : w.G.env = w0.G.env
  frees : m = .seq → ∀ a c, w.G.frees a c ≤ w0.G.frees a c + fr a c
  pushes : m = .seq → w.G.pushes ≤ w0.G.pushes + pu.1
  untr : m = .seq → w.G.untracked ≤ w0.G.untracked + pu.2
  nob : m = .seq → ∀ q, ¬ A q → w0.G.blk q = .nobody → w.G.blk q = .nobody
  opened : m = .seq → ∀ a c i, (w.G.loc a c i).isRw = true → (w0.G.loc a c i).isRw = true ∨
    ∃ k, k < ro.g.slots c ∧ A (slotAddr ro.g (ro.regionStart a c) c i k)
  later : Delay ro w0 w

/-- No deallocation. -/
abbrev noFree : Nat → Nat → Nat := fun _ _ => 0

/-- No block. -/
abbrev noBlock : Nat → Prop := fun _ => False

theorem At.refl {w : World} (h : GInv ro w) : At m ro t noBlock noFree 0 w w :=
  ⟨h, fun _ _ => Iff.rfl, fun q _ _ => KeepB.refl w q, id, rfl, fun _ _ _ => Nat.le_refl _, fun _ => Nat.le_refl _, fun _ => Nat.le_refl _, fun _ _ _ h => h, fun _ _ _ _ h => Or.inl h, Delay.refl w⟩

theorem At.calm {A : Nat → Prop} {fr : Nat → Nat → Nat} {pu : Nat × Nat} {w0 w : World} (a : At m ro t A fr pu w0 w) : w.G.calm = w0.G.calm := by
  rw [Gh.calm, a.env]

theorem At.rely {A : Nat → Prop} {fr : Nat → Nat → Nat} {pu : Nat × Nat} {w0 w w' : World} (a : At m ro t A fr pu w0 w)
    (r : Rely m ro t w w') : At m ro t A fr pu w0 w' where
  inv := r.inv a.inv
  blk := fun q hq => (r.blk a.inv q).trans (a.blk q hq)
  keep := fun q hq h0 => (a.keep q hq h0).trans (r.keep a.inv ((a.blk q hq).mpr h0))
  content := fun c => r.content a.inv (a.content c)
  env := (r.env a.inv).trans a.env
  frees := fun hm => by rw [r.seq hm]; exact a.frees hm
  pushes := fun hm => by rw [r.seq hm]; exact a.pushes hm
  untr := fun hm => by rw [r.seq hm]; exact a.untr hm
  nob := fun hm => by rw [r.seq hm]; exact a.nob hm
  opened := fun hm => by rw [r.seq hm]; exact a.opened hm
  later := a.later.trans (r.trans' a.inv).delay

theorem At.trans {A A' : Nat → Prop} {fr fr' : Nat → Nat → Nat} {pu pu' : Nat × Nat} {w0 w w' : World} (a : At m ro t A fr pu w0 w)
    (b : At m ro t A' fr' pu' w w') :
    At m ro t (fun q => A q ∨ A' q) (fun x y => fr x y + fr' x y) (pu + pu') w0 w' where
  inv := b.inv
  blk := fun q hq => (b.blk q fun h => hq (Or.inr h)).trans (a.blk q fun h => hq (Or.inl h))
  keep := fun q hq h0 => (a.keep q (fun h => hq (Or.inl h)) h0).trans
    (b.keep q (fun h => hq (Or.inr h)) ((a.blk q fun h => hq (Or.inl h)).mpr h0))
  content := fun c => b.content (a.content c)
  env := b.env.trans a.env
  frees := fun hm x y => by have := a.frees hm x y; have := b.frees hm x y; omega
  pushes := fun hm => by have := a.pushes hm; have := b.pushes hm; simp only [Prod.fst_add]; omega
  untr := fun hm => by have := a.untr hm; have := b.untr hm; simp only [Prod.snd_add]; omega
  nob := fun hm q hq h => b.nob hm q (fun h => hq (Or.inr h)) (a.nob hm q (fun h => hq (Or.inl h)) h)
  opened := fun hm x c i h => (b.opened hm x c i h).elim (fun h => (a.opened hm x c i h).imp_right fun ⟨k, h1, h2⟩ => ⟨k, h1, Or.inl h2⟩)
    fun ⟨k, h1, h2⟩ => Or.inr ⟨k, h1, Or.inr h2⟩
  later := a.later.trans b.later

theorem At.mono {A A' : Nat → Prop} {fr fr' : Nat → Nat → Nat} {pu pu' : Nat × Nat} {w0 w : World} (a : At m ro t A fr pu w0 w)
    (hA : ∀ q, A q → A' q) (hf : ∀ x y, fr x y ≤ fr' x y) (hp : pu ≤ pu') : At m ro t A' fr' pu' w0 w where
  inv := a.inv
  blk := fun q hq => a.blk q fun h => hq (hA q h)
  keep := fun q hq => a.keep q fun h => hq (hA q h)
  content := a.content
  env := a.env
  frees := fun hm x y => Nat.le_trans (a.frees hm x y) (Nat.add_le_add_left (hf x y) _)
  pushes := fun hm => Nat.le_trans (a.pushes hm) (Nat.add_le_add_left hp.1 _)
  untr := fun hm => Nat.le_trans (a.untr hm) (Nat.add_le_add_left hp.2 _)
  nob := fun hm q hq => a.nob hm q fun h => hq (hA q h)
  opened := fun hm x c i h => (a.opened hm x c i h).imp_right fun ⟨k, h1, h2⟩ => ⟨k, h1, hA _ h2⟩
  later := a.later

/-- From a promise and the blocks kept. -/
theorem At.ofGuar {A : Nat → Prop} {w w' : World} (g : Guar ro t w w') (hk : ∀ q, ¬ A q → KeepB ro w w' q)
    {fr : Nat → Nat → Nat} {pu : Nat × Nat} (hf : ∀ a c, w'.G.frees a c ≤ w.G.frees a c + fr a c)
    (hp : w'.G.pushes ≤ w.G.pushes + pu.1) (hu : w'.G.untracked ≤ w.G.untracked + pu.2)
    (ho : ∀ a c i, (w'.G.loc a c i).isRw = true → (w.G.loc a c i).isRw = true ∨ ∃ k, k < ro.g.slots c ∧ A (slotAddr ro.g (ro.regionStart a c) c i k) := by
      exact fun _ _ _ h => Or.inl h) : At m ro t A fr pu w w' where
  inv := g.inv
  blk := fun q hq => by rw [(hk q hq).blk]
  keep := fun q hq _ => hk q hq
  content := g.content
  env := g.delay.env
  frees := fun _ => hf
  pushes := fun _ => hp
  untr := fun _ => hu
  nob := fun _ q hq h => (hk q hq).blk.trans h
  opened := fun _ => ho
  later := g.delay

/-- The rule for one action. -/
theorem WP.one {β : Type} {f : Choice → St → Tl → Res (St × Tl × β)} {Q : β → Tl → World → Prop} {tl : Tl} {w : World}
    (hl : m = .conc → Local ro t none f tl w)
    (h : ∀ ch, Fair m w.G.env ch →
      match f ch w.σ tl with
      | .ok (σ', tl', b) => ∃ G', Does ro t none w ⟨σ', G'⟩ ∧ ∀ w2, Rely m ro t ⟨σ', G'⟩ w2 → Q b tl' w2
      | .fatal msg => F (.fatal msg) ch w
      | .segv => F .segv ch w
      | .ub s => F (.ub s) ch w
      | .hang => F .hang ch w) : WP m ro t F (Prog.one f) Q tl w := ⟨hl, h⟩

theorem WP.ret {α : Type} {a : α} {Q : α → Tl → World → Prop} {tl : Tl} {w : World} (h : Q a tl w) : WP m ro t F (.ret a) Q tl w := h

theorem WP.pure {α : Type} {a : α} {Q : α → Tl → World → Prop} {tl : Tl} {w : World} (h : Q a tl w) :
    WP m ro t F (Pure.pure a : Prog α) Q tl w := h

theorem WP.bind' {α β : Type} {P : Prog α} {f : α → Prog β} {Q : β → Tl → World → Prop} {tl : Tl} {w : World}
    {R : α → Tl → World → Prop} (h : WP m ro t F P R tl w) (hf : ∀ a tl w, R a tl w → WP m ro t F (f a) Q tl w) :
    WP m ro t F (P >>= f) Q tl w := WP.bind (h.mono hf)

theorem WP.monoF {α : Type} {F' : Bad → Choice → World → Prop} {P : Prog α} {Q : α → Tl → World → Prop} {tl : Tl} {w : World}
    (hF : ∀ b ch w, F b ch w → F' b ch w) (h : WP m ro t F P Q tl w) : WP m ro t F' P Q tl w := by
  induction P generalizing tl w with
  | ret a => exact h
  | act g k ih =>
    refine ⟨h.1, fun ch hf => ?_⟩
    have h := h.2 ch hf
    revert h
    cases g ch w.σ tl with
    | ok r => 
      obtain ⟨σ', tl', b⟩ := r
      rintro ⟨G', hg, hk⟩
      exact ⟨G', hg, fun w'' hr => ih b (hk w'' hr)⟩
    | fatal msg => exact hF _ _ _
    | segv => exact hF _ _ _
    | ub _ => exact hF _ _ _
    | hang => exact hF _ _ _

/-! ### Local actions -/

/-- An action without a lock is local if it does the same in spite of noise. -/
theorem Local.of {β : Type} {f : Choice → St → Tl → Res (St × Tl × β)} {tl : Tl} {w : World}
    (h : ∀ ch, Fair .conc w.G.env ch → ∀ N ν, Noise ro t none w N ν →
      Res.Rel (fun r r' => r' = (r.1.patch N ν, r.2)) (f ch w.σ tl) (f ch (w.σ.patch N ν) tl)) : Local ro t none f tl w :=
  ⟨fun _ _ _ e => by (cases e), h⟩

/-- An action that uses no shared state. -/
theorem Local.tl {β : Type} {f : Choice → St → Tl → Res (St × Tl × β)} {tl : Tl} {w : World}
    (h : ∃ r, ∀ ch σ, f ch σ tl = .ok (σ, r)) : Local ro t none f tl w :=
  Local.of fun ch _ N ν _ => by
    obtain ⟨r, h⟩ := h
    rw [h, h]; exact rfl

/-- The parts of a state other than memory. -/
theorem St.patch_vm (σ : St) (N : Cell → Prop) (ν : St) (vm : Vm) :
    { σ.patch N ν with vm := vm.patch (fun pg => N (.prot pg)) (fun x => N (.mem x)) ν.vm } = ({ σ with vm := vm } : St).patch N ν := rfl

/-- A section is local: it depends only on, and changes only, the parts that it uses. -/
def LocalS (ro : Ro) (t : Nat) {β : Type} (s : Sect) (f : Choice → St → Errno → Res (St × Errno × β)) (w : World) : Prop :=
  (∀ a c fr, s = .cls a c fr → (a < ro.g.nArena ∧ c < nClasses ro.g ∧ ∀ p, fr = some p → w.G.blk p = .thr t) ∨
    ¬ (a < ro.g.nArena ∧ c < nClasses ro.g) ∧ ∀ ch σ e r, f ch σ e ≠ .ok r) ∧
  ∀ ch N ν e, (∀ c, s.uses ro w.σ c → ¬ N c) →
    Res.Rel (fun r r' => r' = (r.1.patch N ν, r.2)) (f ch w.σ e) (f ch (w.σ.patch N ν) e)

/-- A section that leaves everything but the data of the region allocator alone. -/
theorem LocalS.regions {β : Type} {quar unc : Bool} {f : Choice → St → Errno → Res (St × Errno × β)} {w : World}
    (h : ∀ ch (σ : St) e (vm : Vm → Vm) (sc : (Nat → Nat → SC) → Nat → Nat → SC), Res.Rel (fun r r' => r' = ({ r.1 with vm := vm r.1.vm, sc := sc r.1.sc }, r.2)) (f ch σ e)
      (f ch { σ with vm := vm σ.vm, sc := sc σ.sc } e)) : LocalS ro t (.regions quar unc) f w := by
  refine ⟨fun _ _ _ e => by (cases e), fun ch N ν e hN => ?_⟩
  have hn : ¬ N .regs := hN .regs trivial
  classical
  have he : ∀ σ : St, σ.patch N ν = { σ with
      vm := σ.vm.patch (fun pg => N (.prot pg)) (fun x => N (.mem x)) ν.vm
      sc := fun a c => if N (.sc a c) then ν.sc a c else σ.sc a c } := by
    intro σ
    unfold St.patch
    simp only [if_neg hn]
  rw [he]
  have := h ch w.σ e (fun v => v.patch (fun pg => N (.prot pg)) (fun x => N (.mem x)) ν.vm)
    (fun s a c => if N (.sc a c) then ν.sc a c else s a c)
  exact this.mono fun a b hb => by rw [hb, he]

theorem WP.setErrno {e : Errno} {Q : Unit → Tl → World → Prop} {tl : Tl} {w : World} (h : GInv ro w)
    (hq : ∀ w2, Rely m ro t w w2 → Q () { tl with errno := e } w2) : WP m ro t F (HM.setErrno e) Q tl w :=
  WP.one (fun _ => Local.tl ⟨_, fun _ _ => rfl⟩) fun _ _ => ⟨w.G, (Trans.refl h).quiet, hq⟩

theorem WP.getErrno {Q : Errno → Tl → World → Prop} {tl : Tl} {w : World} (h : GInv ro w)
    (hq : ∀ w2, Rely m ro t w w2 → Q tl.errno tl w2) : WP m ro t F HM.getErrno Q tl w :=
  WP.one (fun _ => Local.tl ⟨_, fun _ _ => rfl⟩) fun _ _ => ⟨w.G, (Trans.refl h).quiet, hq⟩

theorem WP.unseal {Q : Unit → Tl → World → Prop} {tl : Tl} {w : World} (h : GInv ro w)
    (hq : ∀ w2, Rely m ro t w w2 → Q () { tl with unsealed := true } w2) : WP m ro t F HM.unsealMeta Q tl w :=
  WP.one (fun _ => Local.tl ⟨_, fun _ _ => rfl⟩) fun _ _ => ⟨w.G, (Trans.refl h).quiet, hq⟩

theorem WP.sealM {Q : Unit → Tl → World → Prop} {tl : Tl} {w : World} (h : GInv ro w)
    (hq : ∀ w2, Rely m ro t w w2 → Q () { tl with unsealed := false } w2) : WP m ro t F HM.sealMeta Q tl w :=
  WP.one (fun _ => Local.tl ⟨_, fun _ _ => rfl⟩) fun _ _ => ⟨w.G, (Trans.refl h).quiet, hq⟩

/-- The metadata is accessible to the thread. -/
def Unsealed (ro : Ro) (tl : Tl) : Prop := ro.g.sealMetadata = true → tl.unsealed = true

theorem LocalS.local {β : Type} {s : Sect} {f : Choice → St → Errno → Res (St × Errno × β)} {tl : Tl} {w : World} (h : LocalS ro t s f w) :
    Local ro t (some s) (fun ch σ tl =>
      if ro.g.sealMetadata && !tl.unsealed then .segv
      else
        match f ch σ tl.errno with
        | .ok (σ, e, b) => .ok (σ, { tl with errno := e }, b)
        | .fatal m => .fatal m
        | .segv => .segv
        | .ub w => .ub w
        | .hang => .hang) tl w := by
  refine ⟨fun a c fr e => (h.1 a c fr (by cases e; rfl)).imp id fun h => ⟨h.1, fun ch σ r => ?_⟩, fun ch _ N ν hN => ?_⟩
  · have := h.2 ch σ tl.errno
    dsimp only
    split
    · simp
    · revert this
      cases f ch σ tl.errno with
      | ok r => exact fun this => absurd rfl (this r)
      | _ => simp
  dsimp only
  split
  · trivial
  · have := h.2 ch N ν tl.errno hN
    revert this
    cases f ch w.σ tl.errno <;> cases f ch (w.σ.patch N ν) tl.errno <;> intro this <;>
      first | exact this | (change _ = _ at this; subst this; exact rfl)

theorem WP.critical {β : Type} {s : Sect} {f : Choice → St → Errno → Res (St × Errno × β)} {Q : β → Tl → World → Prop} {tl : Tl} {w : World}
    (hl : m = .conc → LocalS ro t s f w) (hu : Unsealed ro tl)
    (h : ∀ ch, Fair m w.G.env ch →
      match f ch w.σ tl.errno with
      | .ok (σ', e', b) => ∃ G', Does ro t (some s) w ⟨σ', G'⟩ ∧ ∀ w2, Rely m ro t ⟨σ', G'⟩ w2 → Q b { tl with errno := e' } w2
      | .fatal msg => F (.fatal msg) ch w
      | .segv => F .segv ch w
      | .ub s => F (.ub s) ch w
      | .hang => F .hang ch w) : WP m ro t F (HM.critical ro s f) Q tl w := by
  refine ⟨fun e => (hl e).local, fun ch hf => ?_⟩
  have h := h ch hf
  have hs : (ro.g.sealMetadata && !tl.unsealed) = false := by
    cases h1 : ro.g.sealMetadata with
    | false => rfl
    | true => rw [hu h1]; rfl
  dsimp only
  rw [hs]
  simp only [Bool.false_eq_true, if_false]
  revert h
  cases f ch w.σ tl.errno with
  | ok r => obtain ⟨σ', e', b⟩ := r; exact id
  | fatal msg => exact id
  | segv => exact id
  | ub _ => exact id
  | hang => exact id

/-- A critical section that only reads. -/
theorem WP.read {β : Type} {s : Sect} {f : Choice → St → Errno → Res (St × Errno × β)} {Q : β → Tl → World → Prop} {tl : Tl} {w : World}
    (hl : m = .conc → LocalS ro t s f w) (hi : GInv ro w) (hu : Unsealed ro tl)
    (h : ∀ ch, Fair m w.G.env ch →
      match f ch w.σ tl.errno with
      | .ok (σ', e', b) => σ' = w.σ ∧ e' = tl.errno ∧ ∀ w2, Rely m ro t w w2 → Q b tl w2
      | .fatal msg => F (.fatal msg) ch w
      | .segv => F .segv ch w
      | .ub s => F (.ub s) ch w
      | .hang => F .hang ch w) : WP m ro t F (HM.critical ro s f) Q tl w := by
  refine WP.critical hl hu fun ch hf => ?_
  have h := h ch hf
  revert h
  cases f ch w.σ tl.errno with
  | ok r =>
    obtain ⟨σ', e', b⟩ := r
    rintro ⟨rfl, rfl, h⟩
    exact ⟨w.G, (Trans.refl hi).quiet, h⟩
  | fatal msg => exact id
  | segv => exact id
  | ub _ => exact id
  | hang => exact id

/-- A system call, described by what it does to pages nobody owns or that `t` holds. -/
theorem WP.sysCall {label : Bool} {f : Choice → Vm → Res (Vm × Bool)} {Q : Bool → Tl → World → Prop} {tl : Tl} {w : World}
    (hl : ∀ ch N ν, Noise ro t none w N ν → Res.Rel (PatchR (fun pg => N (.prot pg)) (fun x => N (.mem x)) ν.vm) (f ch w.σ.vm)
      (f ch (w.σ.vm.patch (fun pg => N (.prot pg)) (fun x => N (.mem x)) ν.vm)))
    (h : ∀ ch, Fair m w.G.env ch →
      match f ch w.σ.vm with
      | .ok (vm', b) => ∃ G', Does ro t none w ⟨{ w.σ with vm := vm' }, G'⟩ ∧
          ∀ w2, Rely m ro t ⟨{ w.σ with vm := vm' }, G'⟩ w2 →
            ∀ e, (b = true → e = ENOMEM) → (b = false → label = false → e = tl.errno) → Q b { tl with errno := e } w2
      | .fatal msg => F (.fatal msg) ch w
      | .segv => F .segv ch w
      | .ub s => F (.ub s) ch w
      | .hang => F .hang ch w) : WP m ro t F (HM.sysCall label f) Q tl w := by
  refine WP.one (fun _ => Local.of fun ch _ N ν hN => ?_) fun ch hf => ?_
  · have := hl ch N ν hN
    rw [show (w.σ.patch N ν).vm = w.σ.vm.patch (fun pg => N (.prot pg)) (fun x => N (.mem x)) ν.vm from rfl]
    revert this
    cases f ch w.σ.vm <;> cases f ch (w.σ.vm.patch (fun pg => N (.prot pg)) (fun x => N (.mem x)) ν.vm) <;> intro this <;>
      first | exact this | skip
    rename_i a b
    obtain ⟨v, r⟩ := a
    obtain ⟨v', r'⟩ := b
    obtain ⟨h1, h2⟩ := this
    simp only at h1 h2
    subst h1 h2
    exact rfl
  have h := h ch hf
  revert h
  cases f ch w.σ.vm with
  | ok r =>
    obtain ⟨vm', b⟩ := r
    rintro ⟨G', h1, h2⟩
    refine ⟨G', h1, fun w2 hr => h2 w2 hr _ ?_ ?_⟩
    · rintro rfl; rfl
    · rintro rfl rfl; rfl
  | fatal msg => exact id
  | segv => exact id
  | ub _ => exact id
  | hang => exact id

end HM
