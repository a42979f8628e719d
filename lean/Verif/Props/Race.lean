import Verif.ConcExample
/-
C53: threads that race to free the same block, and stale pointers freed while other threads are at work.

Such an application is in error, so it is not one of those `CReach` describes. A thread that frees `p` does some things
that concern nobody else before it takes its first lock; until then nobody can tell it from a thread outside of a call.
Here the other threads and the block are as in a reachable state, and the thread at fault is about to take its first lock.
-/
namespace HM

/-- Specification: from program `P` with thread-local state `tl`, a thread gets to `P'` with `tl'` by actions that neither
read nor change anything shared and are made without a lock. -/
inductive Begins {α : Type} : Prog α → Tl → Prog α → Tl → Prop where
  | refl {P : Prog α} {tl : Tl} : Begins P tl P tl
  | step {β : Type} {f : Choice → St → Tl → Res (St × Tl × β)} {k : β → Prog α} {tl tl1 tl' : Tl} {b : β} {P' : Prog α}
      (hf : ∀ ch σ, f ch σ tl = .ok (σ, tl1, b)) (h : Begins (k b) tl1 P' tl') : Begins (.act (l := none) f k) tl P' tl'

/-- Specification: the state when thread `t`, which has been outside of a call, is in program `P` of call `c` with `tl`. -/
def CSys.enters (s : CSys) (t : Nat) (c : Call) (P : Prog Ret) (tl : Tl) : CSys :=
  ⟨s.σ, upd s.tl t tl, upd s.run t (some (c, P)), upd s.start t s.σ⟩

/-- Specification: `free(p)` or `free_sized(p, n)`. -/
inductive Frees (p : Nat) : Call → Prop where
  | free : Frees p (.free p)
  | sized (n : Nat) : Frees p (.freeSized p n)

section
variable {g : Cfg} {ro : Ro} {ar : Nat → Nat} {calm : Bool} {h : List CEv} {s : CSys}

theorem upd_upd {α : Type _} (f : Nat → α) (t : Nat) (a b : α) : upd (upd f t a) t b = upd f t b := by
  funext u; unfold upd; split <;> rfl

theorem upd_at {α : Type _} (f : Nat → α) (t : Nat) (a : α) : upd f t a t = a := by unfold upd; rw [if_pos rfl]

theorem upd_ne {α : Type _} (f : Nat → α) {t u : Nat} (a : α) (h : u ≠ t) : upd f t a u = f u := by unfold upd; rw [if_neg h]

theorem upd_eta {α : Type _} (f : Nat → α) (t : Nat) : upd f t (f t) = f := by
  funext u; unfold upd; split
  · rename_i e; rw [e]
  · rfl

theorem begins_reach {t : Nat} {c : Call} {P P' : Prog Ret} {tl tl' : Tl} (b : Begins P tl P' tl') :
    CReach g ro ar calm h (s.enters t c P tl) → CReach g ro ar calm h (s.enters t c P' tl') := by
  induction b with
  | refl => exact id
  | @step β f k tl tl1 tl' b P' hf _ ih =>
    intro r
    refine ih ?_
    have h1 := r.step t (c := c) (l := none) (f := f) (k := k) (upd_at _ _ _) (ch := Choice.quiet)
      ⟨Env.quiet _, by simp [Choice.quiet]⟩ (σ' := s.σ) (tl' := tl1) (b := b) (by
        show f _ s.σ (upd s.tl t tl t) = _
        rw [upd_at]; exact hf _ _)
    unfold CSys.enters at h1 ⊢
    simp only [upd_upd] at h1
    exact h1

/-- A call that has done nothing but its private beginnings is as good as one that begins now: if the block it is given
is the application's at this moment, whatever happens from here on is an execution of an application without errors,
however long ago the call really began and whoever else had the block then. -/
theorem c53_late_start (r : CReach g ro ar calm h s) {t : Nat} {c : Call} {b : Nat} {P : Prog Ret} {tl' : Tl} (hi : s.run t = none)
    (hok : c.Ok) (hl : Lends ro (hold h) s.σ b c) (hb : Begins (c.prog ro (ar t)) (s.tl t) P tl') :
    CReach g ro ar calm (.inv t c b :: h) (s.enters t c P tl') := by
  refine begins_reach hb ?_
  have h1 := r.invoke t c b hi hok hl
  unfold CSys.enters
  rw [upd_eta]; exact h1

/-! ### The first lock section of a free -/

theorem Begins.one {α β : Type} {f : Choice → St → Tl → Res (St × Tl × β)} {k : β → Prog α} {tl tl1 tl' : Tl} {b : β} {γ : Type} {S : Sect}
    {f' : Choice → St → Tl → Res (St × Tl × γ)} {k' : γ → Prog α} (hf : ∀ ch σ, f ch σ tl = .ok (σ, tl1, b))
    (h : Begins (.act (l := none) f k) tl (.act (l := some S) f' k') tl') : Begins (k b) tl1 (.act (l := some S) f' k') tl' := by
  cases h with
  | step hg h =>
    have := (hg Choice.quiet exSt).symm.trans (hf Choice.quiet exSt)
    cases this
    exact h

theorem Begins.sect {α β : Type} {l : Sect} {f : Choice → St → Tl → Res (St × Tl × β)} {k : β → Prog α} {tl tl' : Tl} {P : Prog α}
    (h : Begins (.act (l := some l) f k) tl P tl') : P = .act (l := some l) f k ∧ tl' = tl := by
  cases h; exact ⟨rfl, rfl⟩

theorem free_first {p arena : Nat} {c : Call} (hc : Frees p c) {tl tl' : Tl} {β : Type} {S : Sect}
    {f : Choice → St → Tl → Res (St × Tl × β)} {k : β → Prog Ret} (h : Begins (c.prog ro arena) tl (.act (l := some S) f k) tl') :
    p ≠ 0 ∧ tl'.unsealed = true ∧
    ((ro.inSlab p = true ∧ ∃ (e : Option Nat) (k' : Unit → Prog Ret), Prog.act (l := some S) f k = (smallFree ro p e).bind k') ∨
     (ro.inSlab p = false ∧ ∃ (e : Option Nat) (k' : Nat × Nat → Prog Ret), Prog.act (l := some S) f k = (removeRegion ro p e "invalid free").bind k')) := by
  cases hc with
  | free =>
    have h : Begins ((hFree ro p).bind fun _ => .ret .unit) tl (.act (l := some S) f k) tl' := h
    unfold hFree at h
    by_cases h0 : p = 0
    · rw [if_pos h0] at h; cases h
    rw [if_neg h0] at h
    refine ⟨h0, ?_⟩
    cases hs : ro.inSlab p with
    | true =>
      rw [hs, if_pos rfl] at h
      obtain ⟨h1, h2⟩ := (Begins.one (tl1 := { tl with unsealed := true }) (b := ()) (fun _ _ => rfl) h).sect
      exact ⟨by rw [h2], Or.inl ⟨rfl, none, _, h1⟩⟩
    | false =>
      rw [hs, if_neg (by simp)] at h
      have h := Begins.one (tl1 := tl) (b := tl.errno) (fun _ _ => rfl) h
      obtain ⟨h1, h2⟩ := (Begins.one (tl1 := { tl with unsealed := true }) (b := ()) (fun _ _ => rfl) h).sect
      exact ⟨by rw [h2], Or.inr ⟨rfl, none, _, h1⟩⟩
  | sized n =>
    have h : Begins ((hFreeSized ro p n).bind fun _ => .ret .unit) tl (.act (l := some S) f k) tl' := h
    unfold hFreeSized at h
    by_cases h0 : p = 0
    · rw [if_pos h0] at h; cases h
    rw [if_neg h0] at h
    refine ⟨h0, ?_⟩
    cases hs : ro.inSlab p with
    | true =>
      simp only [hs] at h
      obtain ⟨h1, h2⟩ := (Begins.one (tl1 := { tl with unsealed := true }) (b := ()) (fun _ _ => rfl) h).sect
      exact ⟨by rw [h2], Or.inl ⟨rfl, some _, _, h1⟩⟩
    | false =>
      simp only [hs] at h
      obtain ⟨h1, h2⟩ := (Begins.one (tl1 := { tl with unsealed := true }) (b := ()) (fun _ _ => rfl) h).sect
      exact ⟨by rw [h2], Or.inr ⟨rfl, some _, _, h1⟩⟩

/-- The only abnormal end is an abort. -/
def FAbort (b : Bad) (_ : Choice) (_ : World) : Prop := ∃ m, b = .fatal m

theorem wp_first {t : Nat} {α β γ : Type} {S : Sect} {f : Choice → St → Tl → Res (St × Tl × β)} {k : β → Prog α}
    {X : Prog γ} {k' : γ → Prog α} (e : Prog.act (l := some S) f k = X.bind k') {l : Option Sect} {x : Choice → St → Tl → Res (St × Tl × γ)}
    (hx : X = .act (l := l) x .ret) {Q : γ → Tl → World → Prop} {tl : Tl} {w : World} (W : WP .seq ro t FAbort X Q tl w)
    {ch : Choice} (hf : Fair .seq w.G.env ch) :
    (∃ m, f ch w.σ tl = .fatal m) ∨ ∃ σ' tl2 b G', f ch w.σ tl = .ok (σ', tl2, b) ∧ Guar ro t w ⟨σ', G'⟩ ∧ ∃ c, Q c tl2 ⟨σ', G'⟩ := by
  subst hx
  have e : Prog.act (l := some S) f k = Prog.act (l := l) x k' := e
  cases e
  have h := W.2 ch hf
  revert h
  cases f ch w.σ tl with
  | ok r =>
    obtain ⟨σ', tl', b⟩ := r
    rintro ⟨G', h1, h2⟩
    exact Or.inr ⟨σ', tl', b, G', rfl, h1.toTrans, b, h2 _ rfl⟩
  | fatal m => intro _; exact Or.inl ⟨m, rfl⟩
  | segv => rintro ⟨_, e⟩; cases e
  | ub m => rintro ⟨_, e⟩; cases e
  | hang => rintro ⟨_, e⟩; cases e

/-- What the first section of a free does, in a world where `p` is no block or belongs to the thread. -/
theorem free_sect (hro : RoOk ro) {t p arena : Nat} {c : Call} (hc : Frees p c) {tl tl' : Tl} {β : Type} {S : Sect}
    {f : Choice → St → Tl → Res (St × Tl × β)} {k : β → Prog Ret} (h : Begins (c.prog ro arena) tl (.act (l := some S) f k) tl')
    {w : World} (hi : GInv ro w) (hp : FreeArg .seq t p w) {ch : Choice} (hf : Fair .seq w.G.env ch) :
    (∃ m, f ch w.σ tl' = .fatal m) ∨ ∃ σ' tl2 b G', f ch w.σ tl' = .ok (σ', tl2, b) ∧ Guar ro t w ⟨σ', G'⟩ ∧ Mine t p w ∧ G'.blk p ≠ .thr t := by
  obtain ⟨_, hu, hk⟩ := free_first hc h
  rcases hk with ⟨hs, e, k', h1⟩ | ⟨hs, e, k', h1⟩
  · refine (wp_first h1 rfl (smallFree_wp (m := .seq) (F := FAbort) hro (fun _ _ _ _ => ⟨_, rfl⟩) hi (fun _ => hu) hp hs (fun _ _ _ => ⟨_, rfl⟩)
      (fun _ _ _ _ => ⟨_, rfl⟩) (fun _ _ _ _ _ _ _ _ _ _ _ => ⟨_, rfl⟩)) hf).imp id ?_
    rintro ⟨σ', tl2, b, G', h2, h3, _, _, _, h4⟩
    exact ⟨σ', tl2, b, G', h2, h3, h4.mine, h4.blk⟩
  · refine (wp_first h1 rfl (removeRegion_wp (m := .seq) (F := FAbort) hro hi (fun _ => hu) hp hs (fun _ _ => ⟨_, rfl⟩)
      (fun _ _ _ _ _ _ _ => ⟨_, rfl⟩)) hf).imp id ?_
    rintro ⟨σ', tl2, b, G', h2, h3, _, _, h4, _⟩
    exact ⟨σ', tl2, b, G', h2, h3, h4.mine, h4.blk⟩

/-- `malloc_usable_size` accepts blocks only. -/
theorem usable_blk (hro : RoOk ro) {w : World} (hi : GInv ro w) {p u : Nat} (h0 : p ≠ 0) (h : Usable ro w.σ p u) : w.G.blk p ≠ .nobody := by
  intro hb
  have hi := hi.setTags none
  have h1 := (hUsableSize_wp (m := .seq) (t := 0) (F := fun b _ _ => ∃ m, b = Bad.fatal m) (p := p) (tl := ⟨0, false⟩) hro hi (fun _ => Or.inr ⟨rfl, hb⟩)
    ⟨fun _ _ _ _ => ⟨_, rfl⟩, fun _ _ _ _ _ => ⟨_, rfl⟩, fun _ _ _ _ _ _ e => absurd e (by simp), fun _ _ _ _ e => absurd e (by simp)⟩).run hi
    (chs := fun _ => Choice.quiet) (fun n => (Env.quiet _).fair fun _ e => nomatch e)
  obtain ⟨tl', h2⟩ := h
  rw [show (w.setTags none).σ = w.σ from rfl, h2] at h1
  obtain ⟨G', _, _, _, _, ⟨h3, _⟩ | ⟨_, _, h3, _⟩⟩ := h1
  · exact h0 h3
  · rw [← show (w.setTags none).G.blk p = w.G.blk p from rfl, h3.blk] at hb; cases hb

/-- `malloc_usable_size` accepts every block. -/
theorem blk_usable (hro : RoOk ro) {w : World} (hi : GInv ro w) (hc : Content ro w) {p : Nat} (hb : w.G.blk p ≠ .nobody) : ∃ u, Usable ro w.σ p u := by
  cases he : w.G.eff p with
  | none =>
    rcases (hi.blk p).mp hb with ⟨a, c, i, k, h1⟩ | ⟨s, g, h1⟩
    · exact ⟨_, (usable_iff hro hi hc hb he).mpr (Or.inl ⟨a, c, i, k, h1, rfl⟩)⟩
    · exact ⟨_, (usable_iff hro hi hc hb he).mpr (Or.inr ⟨g, h1⟩)⟩
  | some n =>
    obtain ⟨_, s, g, h1, _⟩ := hi.eff p n he
    have hs := has_not_inSlab hro hi h1
    have h0 : p ≠ 0 := by rintro rfl; exact hb (blk_zero hro hi)
    refine ⟨s, ⟨0, false⟩, ?_⟩
    unfold hUsableSize
    rw [if_neg h0, hs, if_neg (by simp)]
    rcases lookupRegion_spec hi p with ⟨i, r, h2, _, _, h4, h5⟩ | ⟨_, h3⟩
    · have : r = ⟨p, s, g⟩ := hi.has_unique h5 h1 h4
      subst this
      simp [unsealMeta, sealMeta, findRegion, critical, Prog.one, bind, Prog.bind, Prog.run, h2, pure]
    · exact absurd rfl (h3 _ h1)

/-! ### The theorems -/

/-- A free of what is not a block aborts before it changes anything, whatever other threads are in the middle of. -/
theorem c53_detected (hg : Good g ar) (r : CReach g ro ar calm h s) {p t : Nat} {c : Call} (hc : Frees p c) (hn : ∀ u, ¬ Usable ro s.σ p u)
    {tl tl' : Tl} {β : Type} {S : Sect} {f : Choice → St → Tl → Res (St × Tl × β)} {k : β → Prog Ret}
    (hb : Begins (c.prog ro (ar t)) tl (.act (l := some S) f k) tl') {ch : Choice} (he : Env calm ch) :
    ∃ m, f ch s.σ tl' = .fatal m := by
  obtain ⟨w, _, i⟩ := r.inv hg
  obtain ⟨hro, _⟩ := r.roOk hg
  have hnb : w.G.blk p = .nobody := by
    by_contra hne
    obtain ⟨u, hu⟩ := blk_usable hro i.inv i.content hne
    rw [i.σ] at hu; exact hn u hu
  have := free_sect (t := 0) hro hc hb i.inv (Or.inr ⟨rfl, hnb⟩) (ch := ch) (by rw [i.env]; exact Env.fair (env := (calm, none)) he fun _ e => nomatch e)
  rw [i.σ] at this
  rcases this with h1 | ⟨_, _, _, _, _, _, h3, _⟩
  · exact h1
  · rw [h3.blk] at hnb; cases hnb

/-- Two threads race to free a block of the application: both have called `free` and neither has taken its lock. Whichever
takes it first, the other aborts, at once and whatever it was given as size. -/
theorem c53_double_free (hg : Good g ar) (r : CReach g ro ar calm h s) {p t u : Nat} {c d : Call} (hc : Frees p c) (hd : Frees p d)
    (ht : s.run t = none) (hok : c.Ok) (hl : Lends ro (hold h) s.σ p c)
    {tl1 : Tl} {β : Type} {S : Sect} {f : Choice → St → Tl → Res (St × Tl × β)} {k : β → Prog Ret}
    (hb : Begins (c.prog ro (ar t)) (s.tl t) (.act (l := some S) f k) tl1)
    {tl2 tl2' : Tl} {β' : Type} {S' : Sect} {f' : Choice → St → Tl → Res (St × Tl × β')} {k' : β' → Prog Ret}
    (hb' : Begins (d.prog ro (ar u)) tl2 (.act (l := some S') f' k') tl2')
    {ch ch' : Choice} (he : Env calm ch) (he' : Env calm ch') {σ' : St} {tl3 : Tl} {b : β} (hf : f ch s.σ tl1 = .ok (σ', tl3, b)) :
    ∃ m, f' ch' σ' tl2' = .fatal m := by
  obtain ⟨w, _, i⟩ := r.inv hg
  obtain ⟨hro, _⟩ := r.roOk hg
  have h0 := (free_first hc hb).1
  have hlive : ((hold h).live p).isSome = true := by
    cases hc with
    | free => exact hl.2.resolve_left h0
    | sized n => rw [hl.2.resolve_left h0]; rfl
  have happ := (i.app p).mpr hlive
  have hw := give_inv (o := .thr 1) i.inv (by rw [happ]; simp) (by simp) (app_eff i.inv happ)
  have hm : Mine 1 p (w.give p (.thr 1)) := ⟨give_self _ _ _, app_eff i.inv happ⟩
  have h1 := free_sect (t := 1) hro hc hb hw (Or.inl hm) (ch := ch) (by show Fair _ w.G.env _; rw [i.env]; exact Env.fair (env := (calm, none)) he fun _ e => nomatch e)
  rw [show (w.give p (.thr 1)).σ = s.σ from i.σ, hf] at h1
  rcases h1 with ⟨m, h1⟩ | ⟨σ', tl3, b, G', h1, h2, _, h4⟩
  · cases h1
  cases h1
  have hnb : G'.blk p = .nobody := by
    by_contra hne
    have h5 := ((h2.same (G'.blk p) hne h4).blk p).mp rfl
    rw [hm.blk] at h5; exact h4 h5.symm
  have r2 := (c53_late_start r ht hok hl hb).step t (l := some S) (f := f) (k := k) (c := c) (upd_at _ _ _) ⟨he, fun _ => by cases hc <;> trivial⟩ (σ' := σ') (tl' := tl3) (b := b)
    (by show f ch s.σ (upd s.tl t tl1 t) = _; rw [upd_at]; exact hf)
  exact c53_detected hg r2 hd (t := u) (fun v hv => usable_blk hro (w := ⟨σ', G'⟩) h2.inv h0 hv hnb) hb' he'

end

/-- A free of a small block, up to its lock. -/
theorem free_begins (ro : Ro) {p arena : Nat} (tl : Tl) (h0 : p ≠ 0) (hs : ro.inSlab p = true) :
    ∃ (S : Sect) (f : Choice → St → Tl → Res (St × Tl × Unit)) (k : Unit → Prog Ret),
      Begins ((Call.free p).prog ro arena) tl (.act (l := some S) f k) { tl with unsealed := true } ∧ smallFree ro p none = .act (l := some S) f .ret := by
  refine ⟨_, _, fun _ => sealMeta.bind fun _ => .ret Ret.unit, ?_, rfl⟩
  show Begins ((hFree ro p).bind fun _ => .ret Ret.unit) _ _ _
  unfold hFree
  rw [if_neg h0, hs, if_pos rfl]
  exact .step (fun _ _ => rfl) .refl

/-- Threads 0 and 2 are about to take the lock to free the same block while threads 1 and 4 are in the middle of a
`malloc` and a `calloc`, and the free of thread 0 succeeds if it is first. -/
example : ∃ h s, CReach (exCfg false true) (exRo false true) (fun t => t % 4) false h s ∧ s.run 0 = none ∧ s.run 2 = none ∧
    (∃ c P, s.run 4 = some (c, P)) ∧ Lends (exRo false true) (hold h) s.σ exA (.free exA) ∧
    ∃ (S : Sect) (f : Choice → St → Tl → Res (St × Tl × Unit)) (k : Unit → Prog Ret) (tl' : Tl),
      Begins ((Call.free exA).prog (exRo false true) 0) (s.tl 0) (.act (l := some S) f k) tl' ∧
      (∃ σ' tl2, f Choice.quiet s.σ tl' = .ok (σ', tl2, ())) ∧
      ∃ (k2 : Unit → Prog Ret) (tl2 : Tl), Begins ((Call.free exA).prog (exRo false true) 2) (s.tl 2) (.act (l := some S) f k2) tl2 := by
  obtain ⟨h, s, h1, h2⟩ := ex_conc (stats := false) (sealed := true) (calm := false)
    [.inv 0 (.malloc 100) 0, .go 0 99 0, .ret 0, .inv 1 (.malloc 100) 0, .go 1 2 0, .inv 4 (.calloc 7 50) 0, .go 4 3 0]
    (fun h s => ((hold h).live exA).isSome && (s.run 0).isNone && (s.run 2).isNone && (s.run 4).isSome &&
      match (smallFree (exRo false true) exA none).run (fun _ => Choice.quiet) s.σ { s.tl 0 with unsealed := true } with
      | .ok _ => true
      | _ => false) (by decide +kernel)
  simp only [Bool.and_eq_true, Option.isNone_iff_eq_none] at h2
  obtain ⟨⟨⟨⟨k1, k2⟩, k3⟩, k4⟩, k5⟩ := h2
  obtain ⟨⟨c, P⟩, k4⟩ := Option.isSome_iff_exists.mp k4
  obtain ⟨S, f, k, b1, b2⟩ := free_begins (exRo false true) (p := exA) (arena := 0) (s.tl 0) (by decide) (by decide)
  obtain ⟨S', f', k', b1', b2'⟩ := free_begins (exRo false true) (p := exA) (arena := 2) (s.tl 2) (by decide) (by decide)
  rw [b2] at b2'
  cases b2'
  refine ⟨h, s, h1, k2, k3, ⟨c, P, k4⟩, ⟨rfl, Or.inr k1⟩, S, f, k, _, b1, ?_, k', _, b1'⟩
  rw [b2] at k5
  unfold Prog.run at k5
  simp only at k5
  revert k5
  cases f Choice.quiet s.σ { s.tl 0 with unsealed := true } with
  | ok r => intro _; exact ⟨r.1, r.2.1, rfl⟩
  | _ => intro e; cases e

/-- A block that has been freed and not handed out again is none, while another thread is in the middle of a call. -/
example : ∃ h s, CReach (exCfg false true) (exRo false true) (fun t => t % 4) false h s ∧ (∀ u, ¬ Usable (exRo false true) s.σ exA u) ∧
    (∃ c P, s.run 4 = some (c, P)) := by
  obtain ⟨h, s, h1, h2⟩ := ex_conc (stats := false) (sealed := true) (calm := false)
    [.inv 0 (.malloc 100) 0, .go 0 99 0, .ret 0, .inv 4 (.calloc 7 50) 0, .go 4 3 0, .inv 0 (.free exA) exA, .go 0 99 0, .ret 0]
    (fun h s => (usableB (exRo false true) s.σ exA).isNone && (s.run 4).isSome) (by decide +kernel)
  simp only [Bool.and_eq_true, Option.isNone_iff_eq_none] at h2
  obtain ⟨⟨c, P⟩, k4⟩ := Option.isSome_iff_exists.mp h2.2
  refine ⟨h, s, h1, fun u ⟨tl', hu⟩ => ?_, c, P, k4⟩
  have := h2.1
  unfold usableB at this
  rw [hu] at this
  cases this

end HM
